import Mathlib.Analysis.SpecialFunctions.Log.Basic
import Mathlib.Analysis.SpecialFunctions.Trigonometric.Basic
import Mathlib.Analysis.SpecialFunctions.Pow.NNReal
import Mathlib.Analysis.Complex.ExponentialBounds
import Mathlib.Analysis.Real.Pi.Bounds

/-!
# C88: the intensity of a target at given points

`Target_::pos_phd` (`include/target.hpp:191-194`), `GM::sampled_pos_pdf` (`include/gm.hpp:199-205`) and
`Gaussian_::sampled_pos_pdf` (`include/gaussian.hpp:102-120`).  Numbers are real.  The exception of a
failed decomposition is the outcome `none`.
-/

namespace Verif.Phd.Sampled

/-- What the functions use of a component, `gaussian.hpp:18-20`: the weight, the position, and the lower
triangle of the covariance of the position (entries 00, 10 and 11). -/
structure Cmp where
  w : ℝ
  x : ℝ
  y : ℝ
  a : ℝ
  b : ℝ
  c : ℝ

/-- `Eigen::LLT<Eigen::Matrix2d>(poscov())`, `gaussian.hpp:107-110`: the entries 00, 10 and 11 of `L`;
the decomposition fails at a pivot that is not positive. -/
noncomputable def llt (g : Cmp) : Option (ℝ × ℝ × ℝ) :=
  if g.a ≤ 0 then none
  else
    let l10 := g.b / √g.a
    if g.c - l10 ^ 2 ≤ 0 then none else some (√g.a, l10, √(g.c - l10 ^ 2))

/-- `L.solve(diff).colwise().squaredNorm()` at one point, `gaussian.hpp:112-113`. -/
noncomputable def quadform (L : ℝ × ℝ × ℝ) (g : Cmp) (p : ℝ × ℝ) : ℝ :=
  let u := (p.1 - g.x) / L.1
  let v := (p.2 - g.y - L.2.1 * u) / L.2.2
  u ^ 2 + v ^ 2

/-- `pdf` at one point, `gaussian.hpp:105,114-115`; `points.rows()` is 2. -/
noncomputable def pdf (L : ℝ × ℝ × ℝ) (g : Cmp) (p : ℝ × ℝ) : ℝ :=
  Real.exp (-0.5 * quadform L g p - 2 * (0.5 * Real.log (2 * Real.pi))) / (L.1 * L.2.2)

/-- `Gaussian_::sampled_pos_pdf`, `gaussian.hpp:102-120`.  `points` and `res` have the same number of
columns. -/
noncomputable def sampled1 (points : List (ℝ × ℝ)) (g : Cmp) (scale : ℝ) (res : List ℝ) :
    Option (List ℝ) :=
  match llt g with
  | none => none
  | some L =>
    let pdf := points.map (pdf L g)
    let psum := pdf.sum
    if 1e-7 < psum then some (List.zipWith (fun r d => r + d * scale / psum) res pdf) else some res

/-- `GM::sampled_pos_pdf`, `gm.hpp:199-205`. -/
noncomputable def sampled (points : List (ℝ × ℝ)) (scale : ℝ) : List Cmp → List ℝ → Option (List ℝ)
  | [], res => some res
  | g :: l, res =>
    match sampled1 points g (scale * g.w) res with
    | none => none
    | some res => sampled points scale l res

/-- `Target_::pos_phd`, `target.hpp:191-194`. -/
noncomputable def posPhd (r : ℝ) (cs : List Cmp) (points : List (ℝ × ℝ)) (res : List ℝ) :
    Option (List ℝ) :=
  sampled points r cs res

/-! ## The property -/

/-- The determinant of the covariance of the position. -/
def dt (g : Cmp) : ℝ := g.a * g.c - g.b ^ 2

/-- The covariance of the position is positive definite. -/
def Pd (g : Cmp) : Prop := 0 < g.a ∧ 0 < dt g

/-- The density of the normal distribution with the moments of the component. -/
noncomputable def normal (g : Cmp) (p : ℝ × ℝ) : ℝ :=
  Real.exp (-((g.c * (p.1 - g.x) ^ 2 - 2 * g.b * (p.1 - g.x) * (p.2 - g.y) + g.a * (p.2 - g.y) ^ 2) /
    dt g) / 2) / (2 * Real.pi * √(dt g))

/-- The sum of the density over the points. -/
noncomputable def mass (points : List (ℝ × ℝ)) (g : Cmp) : ℝ := (points.map (normal g)).sum

/-- The share of a component at a point: its weight in proportion to the density there, or nothing if
the density at all points together is at most `1e-7`. -/
noncomputable def share (points : List (ℝ × ℝ)) (p : ℝ × ℝ) (g : Cmp) : ℝ :=
  if 1e-7 < mass points g then g.w * (normal g p / mass points g) else 0

theorem sub_eq_div {g : Cmp} (ha : 0 < g.a) : g.c - (g.b / √g.a) ^ 2 = dt g / g.a := by
  rw [div_pow, Real.sq_sqrt ha.le]
  unfold dt
  field_simp

theorem llt_some {g : Cmp} (h : Pd g) :
    llt g = some (√g.a, g.b / √g.a, √(dt g / g.a)) := by
  obtain ⟨ha, hd⟩ := h
  unfold llt
  rw [if_neg (not_le.2 ha)]
  simp only
  rw [sub_eq_div ha, if_neg (not_le.2 (div_pos hd ha))]

theorem llt_none {g : Cmp} (h : ¬ Pd g) : llt g = none := by
  unfold llt
  by_cases ha : g.a ≤ 0
  · rw [if_pos ha]
  · rw [if_neg ha]
    have ha' := not_le.1 ha
    simp only
    rw [sub_eq_div ha', if_pos]
    by_contra hc
    refine h ⟨ha', ?_⟩
    have := mul_pos (not_le.1 hc) ha'
    rwa [div_mul_cancel₀ _ ha'.ne'] at this

/-- The computed density is the density of the normal distribution. -/
theorem pdf_normal {g : Cmp} (h : Pd g) (p : ℝ × ℝ) :
    pdf (√g.a, g.b / √g.a, √(dt g / g.a)) g p = normal g p := by
  obtain ⟨ha, hd⟩ := h
  have hsa : 0 < √g.a := Real.sqrt_pos.2 ha
  have hsd : 0 < √(dt g) := Real.sqrt_pos.2 hd
  have hdd : √(dt g / g.a) = √(dt g) / √g.a := Real.sqrt_div hd.le _
  have hq : quadform (√g.a, g.b / √g.a, √(dt g / g.a)) g p =
      (g.c * (p.1 - g.x) ^ 2 - 2 * g.b * (p.1 - g.x) * (p.2 - g.y) + g.a * (p.2 - g.y) ^ 2) / dt g := by
    unfold quadform
    simp only
    rw [hdd]
    have e1 : ((p.1 - g.x) / √g.a) ^ 2 = (p.1 - g.x) ^ 2 / g.a := by
      rw [div_pow, Real.sq_sqrt ha.le]
    have e2 : (p.2 - g.y - g.b / √g.a * ((p.1 - g.x) / √g.a)) = p.2 - g.y - g.b * (p.1 - g.x) / g.a := by
      rw [div_mul_div_comm, Real.mul_self_sqrt ha.le]
    rw [e1, e2, div_pow, div_pow, Real.sq_sqrt hd.le, Real.sq_sqrt ha.le]
    have hd' := hd.ne'
    have hc : g.c = (dt g + g.b ^ 2) / g.a := by unfold dt; field_simp; ring
    generalize dt g = d at *
    rw [hc]
    field_simp
    ring
  unfold pdf normal
  rw [hq]
  simp only
  rw [hdd, mul_div_cancel₀ _ hsa.ne']
  have h2pi : (0:ℝ) < 2 * Real.pi := by positivity
  rw [show -0.5 * ((g.c * (p.1 - g.x) ^ 2 - 2 * g.b * (p.1 - g.x) * (p.2 - g.y) +
      g.a * (p.2 - g.y) ^ 2) / dt g) - 2 * (0.5 * Real.log (2 * Real.pi)) =
      -((g.c * (p.1 - g.x) ^ 2 - 2 * g.b * (p.1 - g.x) * (p.2 - g.y) + g.a * (p.2 - g.y) ^ 2) / dt g) / 2
        - Real.log (2 * Real.pi) by ring, Real.exp_sub, Real.exp_log h2pi, div_div]

theorem sampled1_some {points : List (ℝ × ℝ)} {g : Cmp} (h : Pd g) (scale : ℝ) (f : ℝ × ℝ → ℝ) :
    sampled1 points g (scale * g.w) (points.map f) =
      some (points.map fun p => f p + scale * share points p g) := by
  unfold sampled1
  rw [llt_some h]
  simp only
  have e : points.map (pdf (√g.a, g.b / √g.a, √(dt g / g.a)) g) = points.map (normal g) :=
    List.map_congr_left fun p _ => pdf_normal h p
  rw [e, show (points.map (normal g)).sum = mass points g from rfl]
  by_cases hm : 1e-7 < mass points g
  · rw [if_pos hm, List.zipWith_map]
    congr 1
    rw [List.zipWith_self]
    apply List.map_congr_left
    intro p _
    unfold share
    rw [if_pos hm]
    ring
  · rw [if_neg hm]
    congr 1
    apply List.map_congr_left
    intro p _
    unfold share
    rw [if_neg hm, mul_zero, add_zero]

/-- **C88 (the intensity at points).**  If every component has a positive definite covariance, each
point gets the existence probability times the sum of the shares of the components; otherwise there is
an exception. -/
theorem C88_value (r : ℝ) (cs : List Cmp) (points : List (ℝ × ℝ)) (f : ℝ × ℝ → ℝ) :
    ((∀ g ∈ cs, Pd g) → posPhd r cs points (points.map f) =
      some (points.map fun p => f p + r * (cs.map (share points p)).sum)) ∧
    ((∃ g ∈ cs, ¬ Pd g) → posPhd r cs points (points.map f) = none) := by
  unfold posPhd
  induction cs generalizing f with
  | nil => simp [sampled]
  | cons g l ih =>
    constructor
    · intro h
      have hg := h g (by simp)
      unfold sampled
      rw [sampled1_some hg]
      simp only
      rw [(ih _).1 fun g' hg' => h g' (by simp [hg'])]
      congr 1
      apply List.map_congr_left
      intro p _
      simp only [List.map_cons, List.sum_cons]
      ring
    · intro h
      by_cases hg : Pd g
      · unfold sampled
        rw [sampled1_some hg]
        simp only
        apply (ih _).2
        obtain ⟨g', hg', hn⟩ := h
        rcases List.mem_cons.1 hg' with rfl | hm
        · exact absurd hg hn
        · exact ⟨g', hm, hn⟩
      · unfold sampled sampled1
        rw [llt_none hg]

theorem normal_pos {g : Cmp} (h : Pd g) (p : ℝ × ℝ) : 0 < normal g p := by
  unfold normal
  have := Real.sqrt_pos.2 h.2
  positivity

theorem share_sum {points : List (ℝ × ℝ)} {g : Cmp} :
    (points.map fun p => share points p g).sum = if 1e-7 < mass points g then g.w else 0 := by
  by_cases hm : 1e-7 < mass points g
  · have : (fun p => share points p g) = fun p => g.w / mass points g * normal g p := by
      funext p
      unfold share
      rw [if_pos hm]
      ring
    rw [this, List.sum_map_mul_left, if_pos hm]
    have hne : mass points g ≠ 0 := (lt_trans (by norm_num) hm).ne'
    show g.w / mass points g * mass points g = g.w
    field_simp
  · have : (fun p => share points p g) = fun _ => 0 := by
      funext p
      unfold share
      rw [if_neg hm]
    rw [this, if_neg hm]
    simp

theorem sum_swap (points : List (ℝ × ℝ)) (cs : List Cmp) (F : ℝ × ℝ → Cmp → ℝ) :
    (points.map fun p => (cs.map (F p)).sum).sum = (cs.map fun g => (points.map fun p => F p g).sum).sum := by
  induction points with
  | nil => simp
  | cons p l ih => simp only [List.map_cons, List.sum_cons, ih, ← List.sum_map_add]

/-- **C88 (the mass at points).**  All points together get the existence probability times the weights
of the components whose density at all points together is more than `1e-7`, wherever the points are. -/
theorem C88_mass (r : ℝ) (cs : List Cmp) (points : List (ℝ × ℝ)) (f : ℝ × ℝ → ℝ) (res : List ℝ)
    (h : posPhd r cs points (points.map f) = some res) :
    res.sum = (points.map f).sum +
      r * ((cs.filter fun g => decide (1e-7 < mass points g)).map Cmp.w).sum := by
  have hpd : ∀ g ∈ cs, Pd g := by
    by_contra hc
    push Not at hc
    rw [(C88_value r cs points f).2 hc] at h
    cases h
  rw [(C88_value r cs points f).1 hpd] at h
  cases h
  rw [List.sum_map_add, List.sum_map_mul_left, sum_swap]
  congr 2
  simp only [share_sum]
  clear hpd
  induction cs with
  | nil => simp
  | cons g l ih =>
    by_cases hm : 1e-7 < mass points g <;> simp [hm, ih]

/-- **C88 (the mass at points is bounded).**  With weights that add up to at most 1 the points get at
most `r`, and no point loses anything. -/
theorem C88_bounds (r : ℝ) (hr : 0 ≤ r) (cs : List Cmp) (hw : ∀ g ∈ cs, 0 ≤ g.w)
    (h1 : (cs.map Cmp.w).sum ≤ 1) (points : List (ℝ × ℝ)) (f : ℝ × ℝ → ℝ) (res : List ℝ)
    (h : posPhd r cs points (points.map f) = some res) :
    res.sum ≤ (points.map f).sum + r ∧ ∃ d : ℝ × ℝ → ℝ, (∀ p, 0 ≤ d p) ∧
      res = points.map fun p => f p + d p := by
  have hpd : ∀ g ∈ cs, Pd g := by
    by_contra hc
    push Not at hc
    rw [(C88_value r cs points f).2 hc] at h
    cases h
  constructor
  · rw [C88_mass r cs points f res h]
    have : ((cs.filter fun g => decide (1e-7 < mass points g)).map Cmp.w).sum ≤ (cs.map Cmp.w).sum := by
      clear h1 hpd h
      induction cs with
      | nil => simp
      | cons g l ih =>
        have := ih fun g' hg' => hw g' (by simp [hg'])
        have := hw g (by simp)
        by_cases hm : 1e-7 < mass points g <;> simp [hm] <;> linarith
    have := mul_le_mul_of_nonneg_left (this.trans h1) hr
    linarith
  · rw [(C88_value r cs points f).1 hpd] at h
    cases h
    refine ⟨fun p => r * (cs.map (share points p)).sum, fun p => mul_nonneg hr ?_, rfl⟩
    apply List.sum_nonneg
    intro s hs
    obtain ⟨g, hg, rfl⟩ := List.mem_map.1 hs
    unfold share
    by_cases hm : 1e-7 < mass points g
    · rw [if_pos hm]
      exact mul_nonneg (hw g hg) (div_nonneg (normal_pos (hpd g hg) p).le (lt_trans (by norm_num) hm).le)
    · rw [if_neg hm]

/-! ## Concrete cases -/

/-- One component at the origin with the variance `s` in both coordinates. -/
def unit (s : ℝ) : Cmp := ⟨1, 0, 0, s, 0, s⟩

theorem unit_pd {s : ℝ} (h : 0 < s) : Pd (unit s) := ⟨h, by unfold dt unit; simp; positivity⟩

theorem unit_normal {s : ℝ} (h : 0 < s) (p : ℝ × ℝ) :
    normal (unit s) p = Real.exp (-((p.1 ^ 2 + p.2 ^ 2) / s) / 2) / (2 * Real.pi * s) := by
  unfold normal dt unit
  have : √(s * s - 0 ^ 2) = s := by
    rw [show s * s - 0 ^ 2 = s ^ 2 by ring, Real.sqrt_sq h.le]
  simp only [this]
  congr 3
  field_simp
  ring

/-- **C88 (the intensity is that of the target, refuted).**  A target with standard deviation 1 and the
single point five standard deviations away: the point gets the whole existence probability. -/
theorem C88_far_refuted (r : ℝ) : posPhd r [unit 1] [(3, 4)] [0] = some [r] := by
  have h := (C88_value r [unit 1] [(3, 4)] (fun _ => 0)).1 (by
    intro g hg
    rw [List.mem_singleton.1 hg]
    exact unit_pd one_pos)
  rw [show ([0] : List ℝ) = [((3 : ℝ), (4 : ℝ))].map fun _ => 0 from rfl, h]
  have hm : (1e-7 : ℝ) < mass [(3, 4)] (unit 1) := by
    unfold mass
    simp only [List.map_cons, List.map_nil, List.sum_cons, List.sum_nil, add_zero]
    rw [unit_normal one_pos, lt_div_iff₀ (by positivity)]
    have e1 : Real.exp (-(((3 : ℝ) ^ 2 + 4 ^ 2) / 1) / 2) = (Real.exp (25 / 2))⁻¹ := by
      rw [← Real.exp_neg]; norm_num
    rw [e1]
    have e2 : Real.exp (25 / 2) < 1000000 := by
      have h1 := Real.exp_one_lt_d9
      have h3 : Real.exp (25 / 2) ^ 2 = Real.exp 1 ^ 25 := by
        rw [← Real.exp_nat_mul, ← Real.exp_nat_mul]; norm_num
      have h4 : Real.exp 1 ^ 25 < 2.7182818286 ^ 25 := pow_lt_pow_left₀ h1 (Real.exp_pos _).le (by norm_num)
      by_contra hc
      have h5 : (1000000 : ℝ) ^ 2 ≤ Real.exp (25 / 2) ^ 2 :=
        pow_le_pow_left₀ (by norm_num) (not_lt.1 hc) 2
      rw [h3] at h5
      have := h5.trans_lt h4
      norm_num at this
    have e3 : (1000000 : ℝ)⁻¹ < (Real.exp (25 / 2))⁻¹ :=
      (inv_lt_inv₀ (by norm_num) (Real.exp_pos _)).2 e2
    have := Real.pi_lt_four
    refine lt_trans ?_ e3
    norm_num
    linarith
  simp only [List.map_cons, List.map_nil, List.sum_cons, List.sum_nil, add_zero, zero_add]
  unfold share
  rw [if_pos hm]
  unfold mass
  have hp := (normal_pos (unit_pd one_pos) (3, 4)).ne'
  have hw : (unit 1).w = 1 := rfl
  rw [hw]
  simp [hp]

/-- **C88 (a target between the points, refuted).**  A target with standard deviation 1 in the middle of
a cell of a grid with a spacing of 16: none of the points of the cell gets anything. -/
theorem C88_between_refuted (r : ℝ) :
    posPhd r [unit 1] [(8, 8), (8, -8), (-8, 8), (-8, -8)] [0, 0, 0, 0] = some [0, 0, 0, 0] := by
  set pts : List (ℝ × ℝ) := [(8, 8), (8, -8), (-8, 8), (-8, -8)] with hpts
  have h := (C88_value r [unit 1] pts (fun _ => 0)).1 (by
    intro g hg
    rw [List.mem_singleton.1 hg]
    exact unit_pd one_pos)
  rw [show ([0, 0, 0, 0] : List ℝ) = pts.map fun _ => 0 from rfl, h]
  have hm : ¬ (1e-7 : ℝ) < mass pts (unit 1) := by
    unfold mass
    rw [hpts]
    simp only [List.map_cons, List.map_nil, List.sum_cons, List.sum_nil, add_zero]
    rw [unit_normal one_pos, unit_normal one_pos, unit_normal one_pos, unit_normal one_pos]
    have e : ∀ x y : ℝ, x ^ 2 = 64 → y ^ 2 = 64 →
        Real.exp (-((x ^ 2 + y ^ 2) / 1) / 2) / (2 * Real.pi * 1) ≤ 1 / 10 ^ 8 := by
      intro x y hx hy
      rw [hx, hy, show -(((64 : ℝ) + 64) / 1) / 2 = -64 by norm_num, Real.exp_neg,
        div_le_iff₀ (by positivity)]
      have h1 : (2 : ℝ) ^ 64 ≤ Real.exp 64 := by
        have : Real.exp 64 = Real.exp 1 ^ 64 := by rw [← Real.exp_nat_mul]; norm_num
        rw [this]
        refine pow_le_pow_left₀ (by norm_num) ?_ 64
        have := Real.exp_one_gt_d9
        linarith
      have h2 : (Real.exp 64)⁻¹ ≤ ((2 : ℝ) ^ 64)⁻¹ := inv_anti₀ (by positivity) h1
      refine h2.trans ?_
      have := Real.pi_gt_three
      norm_num
      linarith
    have := e 8 8 (by norm_num) (by norm_num)
    have := e 8 (-8) (by norm_num) (by norm_num)
    have := e (-8) 8 (by norm_num) (by norm_num)
    have := e (-8) (-8) (by norm_num) (by norm_num)
    simp only at *
    norm_num at *
    linarith
  congr 1
  apply List.map_congr_left
  intro p _
  simp [share, hm]

/-- A mixture with a correlated component meets the hypotheses. -/
example : ∃ res, posPhd (1 / 2) [⟨3 / 4, 1, 2, 4, 1, 1⟩, ⟨1 / 4, 0, 0, 1, 0, 1⟩] [(0, 0), (1, 1)] [0, 0] =
    some res ∧ res.sum ≤ 1 / 2 := by
  have hpd : ∀ g ∈ ([⟨3 / 4, 1, 2, 4, 1, 1⟩, ⟨1 / 4, 0, 0, 1, 0, 1⟩] : List Cmp), Pd g := by
    intro g hg
    simp only [List.mem_cons, List.not_mem_nil, or_false] at hg
    rcases hg with rfl | rfl <;> constructor <;> norm_num [dt]
  have h := (C88_value (1 / 2) _ [(0, 0), (1, 1)] (fun _ => 0)).1 hpd
  refine ⟨_, h, ?_⟩
  have := (C88_bounds (1 / 2) (by norm_num) _ (by
    intro g hg
    simp only [List.mem_cons, List.not_mem_nil, or_false] at hg
    rcases hg with rfl | rfl <;> norm_num) (by norm_num) _ _ _ h).1
  simpa using this

/-- A covariance that is not positive definite. -/
example : posPhd 1 [⟨1, 0, 0, 1, 2, 1⟩] [(0, 0)] [0] = none :=
  (C88_value 1 _ [(0, 0)] (fun _ => 0)).2 ⟨⟨1, 0, 0, 1, 2, 1⟩, by simp, by
    rintro ⟨_, h⟩
    norm_num [dt] at h⟩

end Verif.Phd.Sampled
