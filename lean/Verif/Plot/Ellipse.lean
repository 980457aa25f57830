import Mathlib.Tactic.Linarith
import Mathlib.Tactic.LinearCombination
import Mathlib.Tactic.FieldSimp
import Mathlib.Tactic.Ring
import Mathlib.Analysis.Real.Pi.Bounds
import Verif.Plot.Model

/-!
# C84: the ellipse that is drawn and the ellipse of the covariance

`onEllipse P n d` says that `d` lies on the boundary of the `n` standard deviation region of the
covariance `P`: `dᵀ P⁻¹ d = n²`, multiplied by the determinant.
-/

namespace Verif.Plot

open Real

/-- `d` is at Mahalanobis distance `n` for the covariance `P`. -/
def onEllipse (P : Cov) (n : ℝ) (d : ℝ × ℝ) : Prop :=
  P.c * d.1 ^ 2 - 2 * P.b * d.1 * d.2 + P.a * d.2 ^ 2 = n ^ 2 * (P.a * P.c - P.b ^ 2)

/-- A proper covariance. -/
def Cov.PosDef (P : Cov) : Prop := 0 < P.a ∧ 0 < P.a * P.c - P.b ^ 2

/-- Rotation by `δ`, from the first axis towards the second. -/
noncomputable def rot (δ : ℝ) (d : ℝ × ℝ) : ℝ × ℝ :=
  (cos δ * d.1 - sin δ * d.2, sin δ * d.1 + cos δ * d.2)

variable {P : Cov}

/-- The second eigenvector is the first turned by a right angle, up to the sign. -/
theorem Eigh.perp (e : Eigh P) : ∃ s : ℝ, s ^ 2 = 1 ∧ e.u = (-s * e.w.2, s * e.w.1) := by
  refine ⟨e.u.2 * e.w.1 - e.u.1 * e.w.2, ?_, ?_⟩
  · have h1 := e.unit_u
    have h2 := e.unit_w
    have h3 := e.orth
    have : (e.u.2 * e.w.1 - e.u.1 * e.w.2) ^ 2 + (e.u.1 * e.w.1 + e.u.2 * e.w.2) ^ 2 =
        (e.u.1 ^ 2 + e.u.2 ^ 2) * (e.w.1 ^ 2 + e.w.2 ^ 2) := by ring
    rw [h1, h2, h3] at this
    linarith
  · have h2 := e.unit_w
    have h3 := e.orth
    ext
    · show e.u.1 = -(e.u.2 * e.w.1 - e.u.1 * e.w.2) * e.w.2
      linear_combination (-e.u.1) * h2 + e.w.1 * h3
    · show e.u.2 = (e.u.2 * e.w.1 - e.u.1 * e.w.2) * e.w.1
      linear_combination (-e.u.2) * h2 + e.w.2 * h3

/-- The covariance from its eigenvalues and the main direction. -/
theorem Eigh.entries (e : Eigh P) :
    P.a = e.v1 * e.w.1 ^ 2 + e.v0 * e.w.2 ^ 2 ∧ P.b = (e.v1 - e.v0) * e.w.1 * e.w.2 ∧
      P.c = e.v1 * e.w.2 ^ 2 + e.v0 * e.w.1 ^ 2 := by
  obtain ⟨s, hs, hu⟩ := e.perp
  have h1 := e.eig_u1
  have h2 := e.eig_u2
  rw [hu] at h1 h2
  simp only at h1 h2
  have h3 := e.eig_w1
  have h4 := e.eig_w2
  have hw := e.unit_w
  have k1 : -P.a * e.w.2 + P.b * e.w.1 = -e.v0 * e.w.2 := by
    linear_combination s * h1 + (P.a * e.w.2 - P.b * e.w.1 - e.v0 * e.w.2) * hs
  have k2 : -P.b * e.w.2 + P.c * e.w.1 = e.v0 * e.w.1 := by
    linear_combination s * h2 + (P.b * e.w.2 - P.c * e.w.1 + e.v0 * e.w.1) * hs
  refine ⟨?_, ?_, ?_⟩
  · linear_combination e.w.1 * h3 - e.w.2 * k1 - P.a * hw
  · linear_combination e.w.2 * h3 + e.w.1 * k1 - P.b * hw
  · linear_combination e.w.2 * h4 + e.w.1 * k2 - P.c * hw

theorem Eigh.det (e : Eigh P) : P.a * P.c - P.b ^ 2 = e.v0 * e.v1 := by
  obtain ⟨ha, hb, hc⟩ := e.entries
  rw [ha, hb, hc]
  linear_combination (e.v0 * e.v1 * (e.w.1 ^ 2 + e.w.2 ^ 2 + 1)) * e.unit_w

theorem Eigh.pos (e : Eigh P) (h : P.PosDef) : 0 < e.v0 ∧ 0 < e.v1 := by
  have hd := e.det
  have h2 := h.2
  rw [hd] at h2
  obtain ⟨ha, -, -⟩ := e.entries
  have h1 := h.1
  have hv1 : 0 < e.v1 := by
    by_contra hc
    push Not at hc
    have h0 : e.v0 ≤ 0 := e.asc.trans hc
    rw [ha] at h1
    have := mul_nonpos_of_nonpos_of_nonneg hc (sq_nonneg e.w.1)
    have := mul_nonpos_of_nonpos_of_nonneg h0 (sq_nonneg e.w.2)
    linarith
  exact ⟨pos_of_mul_pos_left h2 hv1.le, hv1⟩

/-- The main direction in terms of the angle that `np.arctan2` gives. -/
theorem Eigh.dir (e : Eigh P) :
    e.w.1 = cos (Complex.arg ⟨e.w.1, e.w.2⟩) ∧ e.w.2 = sin (Complex.arg ⟨e.w.1, e.w.2⟩) := by
  have hn : ‖(⟨e.w.1, e.w.2⟩ : ℂ)‖ = 1 := by
    rw [Complex.norm_def, Complex.normSq_mk, ← sq, ← sq, e.unit_w, sqrt_one]
  have hz : (⟨e.w.1, e.w.2⟩ : ℂ) ≠ 0 := by
    intro h
    rw [h, norm_zero] at hn
    exact zero_ne_one hn
  refine ⟨?_, ?_⟩
  · rw [Complex.cos_arg hz, hn, div_one]
  · rw [Complex.sin_arg, hn, div_one]

/-- The angle reported by `calc_cov_ellipse`. -/
noncomputable def Eigh.theta (e : Eigh P) : ℝ := Complex.arg ⟨e.w.1, e.w.2⟩

/-- The ellipse of the covariance in the axes of the covariance. -/
theorem onEllipse_axes (e : Eigh P) (h : P.PosDef) {n : ℝ} (hn : 0 < n) (x y : ℝ) :
    onEllipse P n (rot e.theta (x, y)) ↔
      (x / (n * √e.v1)) ^ 2 + (y / (n * √e.v0)) ^ 2 = 1 := by
  obtain ⟨h0, h1⟩ := e.pos h
  obtain ⟨ha, hb, hc⟩ := e.entries
  obtain ⟨hw1, hw2⟩ := e.dir
  have hw := e.unit_w
  have key : P.c * (rot e.theta (x, y)).1 ^ 2 -
      2 * P.b * (rot e.theta (x, y)).1 * (rot e.theta (x, y)).2 +
      P.a * (rot e.theta (x, y)).2 ^ 2 = e.v0 * x ^ 2 + e.v1 * y ^ 2 := by
    simp only [rot, Eigh.theta]
    rw [← hw1, ← hw2, ha, hb, hc]
    linear_combination ((e.v0 * x ^ 2 + e.v1 * y ^ 2) * (e.w.1 ^ 2 + e.w.2 ^ 2 + 1)) * hw
  rw [onEllipse, key, e.det, div_pow, div_pow, mul_pow, mul_pow, sq_sqrt h0.le, sq_sqrt h1.le]
  have hn2 : n ^ 2 ≠ 0 := by positivity
  rw [div_add_div _ _ (by positivity) (by positivity), div_eq_one_iff_eq (by positivity)]
  constructor
  · intro hh
    linear_combination (n ^ 2) * hh
  · intro hh
    apply mul_left_cancel₀ hn2
    linear_combination hh

theorem rot_rot (a b : ℝ) (d : ℝ × ℝ) : rot a (rot b d) = rot (a + b) d := by
  simp only [rot, cos_add, sin_add, Prod.mk.injEq]
  constructor <;> ring

theorem rot_zero (d : ℝ × ℝ) : rot 0 d = d := by
  simp [rot]

/-- A point of the unit circle has an angle. -/
theorem exists_angle {x y : ℝ} (h : x ^ 2 + y ^ 2 = 1) : ∃ t : ℝ, cos t = x ∧ sin t = y := by
  have hn : ‖(⟨x, y⟩ : ℂ)‖ = 1 := by
    rw [Complex.norm_def, Complex.normSq_mk, ← sq, ← sq, h, sqrt_one]
  have hz : (⟨x, y⟩ : ℂ) ≠ 0 := by
    intro h
    rw [h, norm_zero] at hn
    exact zero_ne_one hn
  refine ⟨Complex.arg ⟨x, y⟩, ?_, ?_⟩
  · rw [Complex.cos_arg hz, hn, div_one]
  · rw [Complex.sin_arg, hn, div_one]

/-- The points of the ellipse, listed by an angle. -/
theorem onEllipse_param (e : Eigh P) (h : P.PosDef) {n : ℝ} (hn : 0 < n) (d : ℝ × ℝ) :
    onEllipse P n d ↔ ∃ t, d = rot e.theta (n * √e.v1 * cos t, n * √e.v0 * sin t) := by
  obtain ⟨h0, h1⟩ := e.pos h
  have q1 : n * √e.v1 ≠ 0 := (mul_pos hn (sqrt_pos.2 h1)).ne'
  have q0 : n * √e.v0 ≠ 0 := (mul_pos hn (sqrt_pos.2 h0)).ne'
  have hd : d = rot e.theta (rot (-e.theta) d) := by
    rw [rot_rot, add_neg_cancel, rot_zero]
  constructor
  · intro hh
    rw [hd] at hh
    have hax := (onEllipse_axes e h hn (rot (-e.theta) d).1 (rot (-e.theta) d).2).1 hh
    obtain ⟨t, ht1, ht2⟩ := exists_angle hax
    refine ⟨t, ?_⟩
    rw [ht1, ht2, mul_div_cancel₀ _ q1, mul_div_cancel₀ _ q0]
    exact hd
  · rintro ⟨t, rfl⟩
    rw [onEllipse_axes e h hn, mul_div_cancel_left₀ _ q1, mul_div_cancel_left₀ _ q0]
    exact cos_sq_add_sin_sq t

/-- The ellipse of `lmb/plot.py` is the ellipse of the covariance turned about its centre by the
angle `-(θ + θ π / 180)`, in the plane of (north, east); the figure shows east to the right. -/
theorem C84_drawn (e : Eigh P) (h : P.PosDef) {n : ℝ} (hn : 0 < n) (pos : ℝ × ℝ) (p : ℝ × ℝ) :
    p ∈ covEllipse e pos n ↔ ∃ d, onEllipse P n d ∧
      p = (pos.2 + (rot (-(e.theta + e.theta * π / 180)) d).2,
        pos.1 + (rot (-(e.theta + e.theta * π / 180)) d).1) := by
  have hmem : p ∈ covEllipse e pos n ↔ ∃ t,
      p = (pos.2 + (rot (-(e.theta * π / 180)) (n * √e.v1 * cos t, n * √e.v0 * sin t)).2,
        pos.1 + (rot (-(e.theta * π / 180)) (n * √e.v1 * cos t, n * √e.v0 * sin t)).1) := by
    show (∃ t, _) ↔ _
    have hsw : ∀ t : ℝ, cos (π / 2 - t) = sin t ∧ sin (π / 2 - t) = cos t :=
      fun t => ⟨cos_pi_div_two_sub t, sin_pi_div_two_sub t⟩
    constructor
    · rintro ⟨t, rfl⟩
      refine ⟨π / 2 - t, ?_⟩
      rw [(hsw t).1, (hsw t).2]
      simp only [rot, cos_neg, sin_neg, Eigh.theta, Prod.mk.injEq]
      constructor <;> ring
    · rintro ⟨t, rfl⟩
      refine ⟨π / 2 - t, ?_⟩
      rw [(hsw t).1, (hsw t).2]
      simp only [rot, cos_neg, sin_neg, Eigh.theta, Prod.mk.injEq]
      constructor <;> ring
  rw [hmem]
  constructor
  · rintro ⟨t, rfl⟩
    refine ⟨_, (onEllipse_param e h hn _).2 ⟨t, rfl⟩, ?_⟩
    rw [rot_rot, show -(e.theta + e.theta * π / 180) + e.theta = -(e.theta * π / 180) by ring]
  · rintro ⟨d, hd, rfl⟩
    obtain ⟨t, rfl⟩ := (onEllipse_param e h hn d).1 hd
    refine ⟨t, ?_⟩
    rw [rot_rot, show -(e.theta + e.theta * π / 180) + e.theta = -(e.theta * π / 180) by ring]

/-- The ellipse of `clmb.py` is the ellipse of the covariance turned about its centre by the angle
`θ π / 180 - θ`. -/
theorem C84_drawn_old (e : Eigh P) (h : P.PosDef) {n : ℝ} (hn : 0 < n) (pos : ℝ × ℝ) (p : ℝ × ℝ) :
    p ∈ plotCovEllipse e pos n ↔ ∃ d, onEllipse P n d ∧
      p = (pos.1 + (rot (e.theta * π / 180 - e.theta) d).1,
        pos.2 + (rot (e.theta * π / 180 - e.theta) d).2) := by
  have hmem : p ∈ plotCovEllipse e pos n ↔ ∃ t,
      p = (pos.1 + (rot (e.theta * π / 180) (n * √e.v1 * cos t, n * √e.v0 * sin t)).1,
        pos.2 + (rot (e.theta * π / 180) (n * √e.v1 * cos t, n * √e.v0 * sin t)).2) := by
    show (∃ t, _) ↔ _
    constructor
    · rintro ⟨t, rfl⟩
      refine ⟨t, ?_⟩
      simp only [rot, Eigh.theta, Prod.mk.injEq]
      constructor <;> ring
    · rintro ⟨t, rfl⟩
      refine ⟨t, ?_⟩
      simp only [rot, Eigh.theta, Prod.mk.injEq]
      constructor <;> ring
  rw [hmem]
  constructor
  · rintro ⟨t, rfl⟩
    refine ⟨_, (onEllipse_param e h hn _).2 ⟨t, rfl⟩, ?_⟩
    rw [rot_rot, sub_add_cancel]
  · rintro ⟨d, hd, rfl⟩
    obtain ⟨t, rfl⟩ := (onEllipse_param e h hn d).1 hd
    refine ⟨t, ?_⟩
    rw [rot_rot, sub_add_cancel]

/-- A turned ellipse is the same ellipse exactly when it is a circle or the turn is a half turn. -/
theorem turned_iff (e : Eigh P) (h : P.PosDef) {n : ℝ} (hn : 0 < n) (δ : ℝ) :
    (∀ d, (∃ d', onEllipse P n d' ∧ d = rot δ d') ↔ onEllipse P n d) ↔
      e.v0 = e.v1 ∨ sin δ = 0 := by
  obtain ⟨h0, h1⟩ := e.pos h
  constructor
  · intro hall
    -- the end of the long axis, turned
    have hend : onEllipse P n (rot e.theta (n * √e.v1 * cos 0, n * √e.v0 * sin 0)) :=
      (onEllipse_param e h hn _).2 ⟨0, rfl⟩
    have := (hall _).1 ⟨_, hend, rfl⟩
    rw [rot_rot, add_comm, ← rot_rot] at this
    rw [show rot δ (n * √e.v1 * cos 0, n * √e.v0 * sin 0) =
      (n * √e.v1 * cos δ, n * √e.v1 * sin δ) by simp [rot]; constructor <;> ring] at this
    rw [onEllipse_axes e h hn] at this
    rw [mul_div_cancel_left₀ _ (mul_pos hn (sqrt_pos.2 h1)).ne', div_pow, mul_pow, mul_pow, mul_pow,
      sq_sqrt h0.le, sq_sqrt h1.le] at this
    have hq : n ^ 2 * e.v0 ≠ 0 := by positivity
    field_simp at this
    have hc := cos_sq_add_sin_sq δ
    have h3 : (e.v1 - e.v0) * sin δ ^ 2 = 0 := by
      linear_combination this - e.v0 * hc
    rcases mul_eq_zero.1 h3 with h4 | h4
    · left
      linarith
    · right
      exact pow_eq_zero_iff (two_ne_zero) |>.1 h4
  · intro hor d
    have hinv : ∀ x, onEllipse P n (rot δ x) ↔ onEllipse P n x := by
      intro x
      rcases hor with hv | hs
      · obtain ⟨ha, hb, hc⟩ := e.entries
        have ha' : P.a = e.v1 := by rw [ha, hv]; linear_combination e.v1 * e.unit_w
        have hb' : P.b = 0 := by rw [hb, hv]; ring
        have hc' : P.c = e.v1 := by rw [hc, hv]; linear_combination e.v1 * e.unit_w
        have hcs := cos_sq_add_sin_sq δ
        simp only [onEllipse, rot, ha', hb', hc']
        constructor
        · intro hh
          linear_combination hh - e.v1 * (x.1 ^ 2 + x.2 ^ 2) * hcs
        · intro hh
          linear_combination hh + e.v1 * (x.1 ^ 2 + x.2 ^ 2) * hcs
      · have hcs := cos_sq_add_sin_sq δ
        rw [hs] at hcs
        simp only [onEllipse, rot, hs]
        constructor
        · intro hh
          linear_combination hh - (P.c * x.1 ^ 2 - 2 * P.b * x.1 * x.2 + P.a * x.2 ^ 2) * hcs
        · intro hh
          linear_combination hh + (P.c * x.1 ^ 2 - 2 * P.b * x.1 * x.2 + P.a * x.2 ^ 2) * hcs
    constructor
    · rintro ⟨d', hd', rfl⟩
      exact (hinv d').2 hd'
    · intro hd
      refine ⟨rot (-δ) d, ?_, ?_⟩
      · rw [← hinv, rot_rot, add_neg_cancel, rot_zero]
        exact hd
      · rw [rot_rot, add_neg_cancel, rot_zero]

/-- The figure of the ellipse of the covariance in `lmb/plot.py`: east to the right, north up. -/
def trueEllipse (P : Cov) (pos : ℝ × ℝ) (n : ℝ) : Set (ℝ × ℝ) :=
  { p | onEllipse P n (p.2 - pos.1, p.1 - pos.2) }

/-- The figure of the ellipse of the covariance in `clmb.py`. -/
def trueEllipseOld (P : Cov) (pos : ℝ × ℝ) (n : ℝ) : Set (ℝ × ℝ) :=
  { p | onEllipse P n (p.1 - pos.1, p.2 - pos.2) }

/-- `lmb/plot.py` draws the ellipse of the covariance exactly when the ellipse is a circle or the
eigenvector points north, or in one stray direction near south. -/
theorem C84_right_iff (e : Eigh P) (h : P.PosDef) {n : ℝ} (hn : 0 < n) (pos : ℝ × ℝ) :
    covEllipse e pos n = trueEllipse P pos n ↔
      e.v0 = e.v1 ∨ e.theta = 0 ∨ |e.theta| = 180 * π / (180 + π) := by
  have hpi := pi_pos
  have hsin : sin (-(e.theta + e.theta * π / 180)) = 0 ↔
      e.theta = 0 ∨ |e.theta| = 180 * π / (180 + π) := by
    rw [sin_neg, neg_eq_zero, sin_eq_zero_iff]
    have hlo : -π < e.theta := Complex.neg_pi_lt_arg _
    have hhi : e.theta ≤ π := Complex.arg_le_pi _
    have hp4 : π < 4 := pi_lt_four
    constructor
    · rintro ⟨k, hk⟩
      have hk' : (k : ℝ) * 180 * π = e.theta * (180 + π) := by
        linear_combination 180 * hk
      have hup : (k : ℝ) < 2 := by
        by_contra hc
        push Not at hc
        have h1 : e.theta * (180 + π) ≤ π * (180 + π) :=
          mul_le_mul_of_nonneg_right hhi (by linarith)
        have h2 : 2 * (180 * π) ≤ (k : ℝ) * (180 * π) :=
          mul_le_mul_of_nonneg_right hc (by linarith)
        have h3 : π * π ≤ π * 4 := mul_le_mul_of_nonneg_left hp4.le hpi.le
        linarith
      have hdn : (-2 : ℝ) < k := by
        by_contra hc
        push Not at hc
        have h1 : -π * (180 + π) ≤ e.theta * (180 + π) :=
          mul_le_mul_of_nonneg_right hlo.le (by linarith)
        have h2 : (k : ℝ) * (180 * π) ≤ -2 * (180 * π) :=
          mul_le_mul_of_nonneg_right hc (by linarith)
        have h3 : π * π ≤ π * 4 := mul_le_mul_of_nonneg_left hp4.le hpi.le
        linarith
      have hup' : k < 2 := by exact_mod_cast hup
      have hdn' : -2 < k := by exact_mod_cast hdn
      have hth : e.theta = k * (180 * π / (180 + π)) := by
        field_simp
        linarith
      have hq : 0 < 180 * π / (180 + π) := by positivity
      obtain rfl | rfl | rfl : k = -1 ∨ k = 0 ∨ k = 1 := by omega
      · right
        rw [hth]
        push_cast
        rw [neg_one_mul, abs_neg, abs_of_pos hq]
      · left
        rw [hth]
        push_cast
        ring
      · right
        rw [hth]
        push_cast
        rw [one_mul, abs_of_pos hq]
    · rintro (h0 | h1)
      · exact ⟨0, by rw [h0]; push_cast; ring⟩
      · rcases abs_eq (by positivity) |>.1 h1 with h2 | h2
        · refine ⟨1, ?_⟩
          rw [h2]
          push_cast
          field_simp
        · refine ⟨-1, ?_⟩
          rw [h2]
          push_cast
          field_simp
          ring
  rw [← hsin, ← turned_iff e h hn, Set.ext_iff]
  simp only [C84_drawn e h hn]
  constructor
  · intro hall d
    have := hall (pos.2 + d.2, pos.1 + d.1)
    simp only [trueEllipse, Set.mem_setOf_eq, add_sub_cancel_left] at this
    rw [← this]
    constructor
    · rintro ⟨d', hd', rfl⟩
      exact ⟨d', hd', rfl⟩
    · rintro ⟨d', hd', hp⟩
      refine ⟨d', hd', ?_⟩
      rw [Prod.mk.injEq, add_right_inj, add_right_inj] at hp
      exact Prod.ext hp.2 hp.1
  · intro hall p
    have := hall (p.2 - pos.1, p.1 - pos.2)
    show _ ↔ onEllipse P n (p.2 - pos.1, p.1 - pos.2)
    rw [← this]
    constructor
    · rintro ⟨d', hd', rfl⟩
      refine ⟨d', hd', ?_⟩
      simp only [add_sub_cancel_left]
    · rintro ⟨d', hd', hp⟩
      refine ⟨d', hd', ?_⟩
      rw [← hp]
      simp only [add_sub_cancel]

/-- `clmb.py` draws the ellipse of the covariance exactly when the ellipse is a circle or the angle
of the eigenvector is zero. -/
theorem C84_right_iff_old (e : Eigh P) (h : P.PosDef) {n : ℝ} (hn : 0 < n) (pos : ℝ × ℝ) :
    plotCovEllipse e pos n = trueEllipseOld P pos n ↔ e.v0 = e.v1 ∨ e.theta = 0 := by
  have hpi := pi_pos
  have hsin : sin (e.theta * π / 180 - e.theta) = 0 ↔ e.theta = 0 := by
    rw [sin_eq_zero_iff]
    have hlo : -π < e.theta := Complex.neg_pi_lt_arg _
    have hhi : e.theta ≤ π := Complex.arg_le_pi _
    have hp4 : π < 4 := pi_lt_four
    constructor
    · rintro ⟨k, hk⟩
      have hk' : (k : ℝ) * 180 * π = e.theta * (π - 180) := by
        linear_combination 180 * hk
      have hup : (k : ℝ) < 1 := by
        by_contra hc
        push Not at hc
        have h1 : e.theta * (π - 180) ≤ -π * (π - 180) :=
          mul_le_mul_of_nonpos_right hlo.le (by linarith)
        have h2 : 1 * (180 * π) ≤ (k : ℝ) * (180 * π) :=
          mul_le_mul_of_nonneg_right hc (by linarith)
        have h3 : 0 < π * π := mul_pos hpi hpi
        linarith
      have hdn : (-1 : ℝ) < k := by
        by_contra hc
        push Not at hc
        have h1 : π * (π - 180) ≤ e.theta * (π - 180) :=
          mul_le_mul_of_nonpos_right hhi (by linarith)
        have h2 : (k : ℝ) * (180 * π) ≤ -1 * (180 * π) :=
          mul_le_mul_of_nonneg_right hc (by linarith)
        have h3 : 0 < π * π := mul_pos hpi hpi
        linarith
      have hup' : k < 1 := by exact_mod_cast hup
      have hdn' : -1 < k := by exact_mod_cast hdn
      obtain rfl : k = 0 := by omega
      push_cast at hk'
      have : e.theta * (π - 180) = 0 := by linarith
      rcases mul_eq_zero.1 this with h0 | h0
      · exact h0
      · linarith
    · intro h0
      exact ⟨0, by rw [h0]; push_cast; ring⟩
  rw [← hsin, ← turned_iff e h hn, Set.ext_iff]
  simp only [C84_drawn_old e h hn]
  constructor
  · intro hall d
    have := hall (pos.1 + d.1, pos.2 + d.2)
    simp only [trueEllipseOld, Set.mem_setOf_eq, add_sub_cancel_left] at this
    rw [← this]
    constructor
    · rintro ⟨d', hd', rfl⟩
      exact ⟨d', hd', rfl⟩
    · rintro ⟨d', hd', hp⟩
      refine ⟨d', hd', ?_⟩
      rw [Prod.mk.injEq, add_right_inj, add_right_inj] at hp
      exact Prod.ext hp.1 hp.2
  · intro hall p
    have := hall (p.1 - pos.1, p.2 - pos.2)
    show _ ↔ onEllipse P n (p.1 - pos.1, p.2 - pos.2)
    rw [← this]
    constructor
    · rintro ⟨d', hd', rfl⟩
      refine ⟨d', hd', ?_⟩
      simp only [add_sub_cancel_left]
    · rintro ⟨d', hd', hp⟩
      refine ⟨d', hd', ?_⟩
      rw [← hp]
      simp only [add_sub_cancel]

/-- A target known well in north and badly in east: no run of `lmb/plot.py` draws its ellipse,
and the ellipse drawn reaches further than `0.999 · n · √c` north or south of the target, where the
ellipse of the covariance ends at `n · √a`. -/
theorem C84_turned_refuted (P : Cov) (hb : P.b = 0) (ha : 0 < P.a) (hac : P.a < P.c) (e : Eigh P)
    {n : ℝ} (hn : 0 < n) (pos : ℝ × ℝ) :
    covEllipse e pos n ≠ trueEllipse P pos n ∧
      (∃ p ∈ covEllipse e pos n, 0.999 * (n * √P.c) < |p.2 - pos.1|) ∧
      (∀ p ∈ trueEllipse P pos n, |p.2 - pos.1| ≤ n * √P.a) := by
  have hpd : P.PosDef := ⟨ha, by rw [hb]; have := mul_pos ha (ha.trans hac); linarith⟩
  obtain ⟨h0, h1⟩ := e.pos hpd
  obtain ⟨ea, eb, ec⟩ := e.entries
  have hw := e.unit_w
  have hpi := pi_pos
  -- the direction is east or west
  have hne : e.v0 ≠ e.v1 := by
    intro hv
    rw [← hv] at ea ec
    have : P.a = P.c := by rw [ea, ec]; ring
    linarith
  have hz : e.w.1 = 0 := by
    rw [hb] at eb
    rcases mul_eq_zero.1 eb.symm with h2 | h2
    · rcases mul_eq_zero.1 h2 with h3 | h3
      · exact absurd (by linarith) hne
      · exact h3
    · exfalso
      rw [h2] at ea ec hw
      have hw1 : e.w.1 ^ 2 = 1 := by linarith
      rw [hw1] at ea ec
      have := e.asc
      linarith
  have hw2 : e.w.2 ^ 2 = 1 := by rw [hz] at hw; linarith
  have hv1 : e.v1 = P.c := by rw [ec, hz, hw2]; ring
  have hv0 : e.v0 = P.a := by rw [ea, hz, hw2]; ring
  have hth : |e.theta| = π / 2 := by
    have hfac : (e.w.2 - 1) * (e.w.2 + 1) = 0 := by linear_combination hw2
    rcases (mul_eq_zero.1 hfac).imp sub_eq_zero.1 eq_neg_of_add_eq_zero_left with h2 | h2
    · have : e.theta = π / 2 := by
        rw [Eigh.theta, hz, h2]
        have : (⟨0, 1⟩ : ℂ) = Complex.I := rfl
        rw [this, Complex.arg_I]
      rw [this, abs_of_pos (by positivity)]
    · have : e.theta = -(π / 2) := by
        rw [Eigh.theta, hz, h2]
        have : (⟨0, -1⟩ : ℂ) = -Complex.I := by
          apply Complex.ext <;> simp
        rw [this, Complex.arg_neg_I]
      rw [this, abs_neg, abs_of_pos (by positivity)]
  refine ⟨?_, ?_, ?_⟩
  · rw [Ne, C84_right_iff e hpd hn]
    rintro (h2 | h2 | h2)
    · exact hne h2
    · rw [h2, abs_zero] at hth
      linarith
    · rw [hth, div_eq_div_iff (by norm_num) (by positivity)] at h2
      have h3 : π * (180 + π) < π * 360 := mul_lt_mul_of_pos_left (by linarith [pi_lt_four]) hpi
      linarith
  · -- the end of the height of the patch
    have hcos : 0.999 < cos (e.theta * π / 180) := by
      have habs : |e.theta * π / 180| ≤ 0.04 := by
        rw [abs_div, abs_mul, hth, abs_of_pos hpi, abs_of_pos (by norm_num : (0:ℝ) < 180)]
        have hp := pi_lt_d2
        have h3 : π * π ≤ 3.15 * 3.15 := mul_le_mul hp.le hp.le hpi.le (by norm_num)
        rw [div_le_iff₀ (by norm_num)]
        linarith
      have h4 := one_sub_sq_div_two_le_cos (x := e.theta * π / 180)
      have h5 : (e.theta * π / 180) ^ 2 ≤ 0.04 ^ 2 := by
        rw [← sq_abs]
        exact pow_le_pow_left₀ (abs_nonneg _) habs 2
      norm_num at h5 ⊢
      linarith
    refine ⟨_, ⟨π / 2, rfl⟩, ?_⟩
    simp only [cos_pi_div_two, sin_pi_div_two]
    rw [hv1]
    have hq : 0 < n * √P.c := mul_pos hn (sqrt_pos.2 (ha.trans hac))
    rw [show pos.1 + (2 * (n * √e.v0) / 2 * 0 * sin (Complex.arg ⟨e.w.1, e.w.2⟩ * π / 180) +
      2 * (n * √P.c) / 2 * 1 * cos (Complex.arg ⟨e.w.1, e.w.2⟩ * π / 180)) - pos.1 =
      n * √P.c * cos (e.theta * π / 180) by rw [Eigh.theta]; ring]
    rw [abs_mul, abs_of_pos hq, mul_comm]
    exact mul_lt_mul_of_pos_left (hcos.trans_le (le_abs_self _)) hq
  · intro p hp
    have hp' : onEllipse P n (p.2 - pos.1, p.1 - pos.2) := hp
    simp only [onEllipse, hb] at hp'
    apply abs_le_of_sq_le_sq _ (mul_nonneg hn.le (sqrt_nonneg _))
    rw [mul_pow, sq_sqrt ha.le]
    have hc : 0 < P.c := ha.trans hac
    have h3 : P.c * (p.2 - pos.1) ^ 2 ≤ P.c * (n ^ 2 * P.a) := by
      have := mul_nonneg ha.le (sq_nonneg (p.1 - pos.2))
      linarith
    exact le_of_mul_le_mul_left h3 hc

/-- Every covariance that is at least as uncertain in east as in north and is not a circle is drawn
wrongly by `lmb/plot.py`, whatever signs the eigenvectors have. -/
theorem C84_east_refuted (P : Cov) (h : P.PosDef) (hac : P.a ≤ P.c) (hnc : P.a ≠ P.c ∨ P.b ≠ 0)
    (e : Eigh P) {n : ℝ} (hn : 0 < n) (pos : ℝ × ℝ) :
    covEllipse e pos n ≠ trueEllipse P pos n := by
  obtain ⟨ea, eb, ec⟩ := e.entries
  have hw := e.unit_w
  have hpi := pi_pos
  have hd := e.dir
  change e.w.1 = cos e.theta ∧ e.w.2 = sin e.theta at hd
  have hne : e.v0 ≠ e.v1 := by
    intro hv
    rw [← hv] at ea ec eb
    rcases hnc with h1 | h1
    · exact h1 (by rw [ea, ec]; ring)
    · exact h1 (by rw [eb]; ring)
  have hlt : 0 < e.v1 - e.v0 := sub_pos.2 (lt_of_le_of_ne e.asc hne)
  have hcos : cos e.theta ^ 2 ≤ 1 / 2 := by
    rw [← hd.1]
    have h1 : (e.v1 - e.v0) * (e.w.1 ^ 2 - e.w.2 ^ 2) ≤ 0 := by
      have : (e.v1 - e.v0) * (e.w.1 ^ 2 - e.w.2 ^ 2) = P.a - P.c := by rw [ea, ec]; ring
      linarith
    have h2 : e.w.1 ^ 2 - e.w.2 ^ 2 ≤ 0 := by
      by_contra hc
      push Not at hc
      have := mul_pos hlt hc
      linarith
    linarith
  rw [Ne, C84_right_iff e h hn]
  rintro (h2 | h2 | h2)
  · exact hne h2
  · rw [h2, cos_zero] at hcos
    norm_num at hcos
  · rw [← cos_abs, h2] at hcos
    have hx : 180 * π / (180 + π) = π - π * π / (180 + π) := by
      field_simp
      ring
    rw [hx, cos_pi_sub, neg_sq] at hcos
    have hp := pi_lt_d2
    have h3 : π * π ≤ 3.15 * 3.15 := mul_le_mul hp.le hp.le hpi.le (by norm_num)
    have h4 : π * π / (180 + π) ≤ 0.1 := by
      rw [div_le_iff₀ (by positivity)]
      linarith
    have h5 : 0 ≤ π * π / (180 + π) := by positivity
    have h6 := one_sub_sq_div_two_le_cos (x := π * π / (180 + π))
    have h7 : (π * π / (180 + π)) ^ 2 ≤ 0.1 ^ 2 := pow_le_pow_left₀ h5 h4 2
    have h8 : 0.995 ≤ cos (π * π / (180 + π)) := by
      norm_num at h7 ⊢
      linarith
    have h9 : (0.995 : ℝ) ^ 2 ≤ cos (π * π / (180 + π)) ^ 2 :=
      pow_le_pow_left₀ (by norm_num) h8 2
    norm_num at h9
    linarith

/-- Every covariance in which the two coordinates are correlated is drawn wrongly by `clmb.py`. -/
theorem C84_old_refuted (P : Cov) (h : P.PosDef) (hb : P.b ≠ 0) (e : Eigh P) {n : ℝ} (hn : 0 < n)
    (pos : ℝ × ℝ) : plotCovEllipse e pos n ≠ trueEllipseOld P pos n := by
  obtain ⟨-, eb, -⟩ := e.entries
  have hd := e.dir
  change e.w.1 = cos e.theta ∧ e.w.2 = sin e.theta at hd
  rw [Ne, C84_right_iff_old e h hn]
  rintro (h2 | h2)
  · apply hb
    rw [eb, h2]
    ring
  · apply hb
    rw [eb, hd.2, h2, sin_zero, mul_zero]

/-- One metre of uncertainty in north, two in east. -/
def exE : Eigh ⟨1, 0, 4⟩ where
  v0 := 1
  v1 := 4
  u := (1, 0)
  w := (0, 1)
  asc := by norm_num
  unit_u := by norm_num
  unit_w := by norm_num
  orth := by norm_num
  eig_u1 := by norm_num
  eig_u2 := by norm_num
  eig_w1 := by norm_num
  eig_w2 := by norm_num

/-- Correlated coordinates: the long axis points along (3, 4). -/
noncomputable def exC : Eigh ⟨34 / 25, 12 / 25, 41 / 25⟩ where
  v0 := 1
  v1 := 2
  u := (-4 / 5, 3 / 5)
  w := (3 / 5, 4 / 5)
  asc := by norm_num
  unit_u := by norm_num
  unit_w := by norm_num
  orth := by norm_num
  eig_u1 := by norm_num
  eig_u2 := by norm_num
  eig_w1 := by norm_num
  eig_w2 := by norm_num

theorem exE_pd : (⟨1, 0, 4⟩ : Cov).PosDef := ⟨by norm_num, by norm_num⟩

theorem exC_pd : (⟨34 / 25, 12 / 25, 41 / 25⟩ : Cov).PosDef := ⟨by norm_num, by norm_num⟩

example : covEllipse exE (10, 20) 2 ≠ trueEllipse ⟨1, 0, 4⟩ (10, 20) 2 :=
  (C84_turned_refuted ⟨1, 0, 4⟩ rfl one_pos (by norm_num) exE two_pos (10, 20)).1

example : covEllipse exC (10, 20) 2 ≠ trueEllipse ⟨34 / 25, 12 / 25, 41 / 25⟩ (10, 20) 2 :=
  C84_east_refuted _ exC_pd (by norm_num) (Or.inr (by norm_num)) exC two_pos _

example : plotCovEllipse exC (10, 20) 2 ≠ trueEllipseOld ⟨34 / 25, 12 / 25, 41 / 25⟩ (10, 20) 2 :=
  C84_old_refuted _ exC_pd (by norm_num) exC two_pos _

example (p : ℝ × ℝ) := C84_drawn exC exC_pd two_pos (10, 20) p

example (p : ℝ × ℝ) := C84_drawn_old exE exE_pd two_pos (10, 20) p

example := C84_right_iff exC exC_pd two_pos (10, 20)

example := C84_right_iff_old exC exC_pd two_pos (10, 20)

end Verif.Plot
