import Verif.CF.Props
import Verif.BBox.Model
import Mathlib.Analysis.Real.Pi.Bounds

/-!
# Boxes in latitude and longitude, `AABBox::llaabbox` (`include/bbox.hpp:91-96`)

The boxes of the spatial index are made from local boxes by converting two corners.
-/

namespace Verif.CF

open Verif.BBox Matrix

/-- `AABBox::llaabbox`, `bbox.hpp:91-96`: coordinate 0 is the latitude, 1 the longitude. -/
noncomputable def llaabbox (b : AABB ℝ) (o : Fin 2 → ℝ) : AABB ℝ :=
  let cmin := ne2ll ![b.x0, b.y0] o
  let cmax := ne2ll ![b.x1, b.y1] o
  AABB.mk4 (cmin 0) (cmin 1) (cmax 0) (cmax 1)

/-! ## A coarse bound on the latitude away from the poles -/

theorem abs_mul_le {a b A B : ℝ} (ha : |a| ≤ A) (hb : |b| ≤ B) : |a * b| ≤ A * B := by
  rw [abs_mul]
  exact mul_le_mul ha hb (abs_nonneg _) ((abs_nonneg _).trans ha)

theorem le_of_sq {a b : ℝ} (hb : 0 ≤ b) (h : a ^ 2 ≤ b ^ 2) : a ≤ b :=
  (le_abs_self a).trans (abs_le_of_sq_le_sq h hb)

/-- The correction of the latitude is small. -/
theorem newton_small {r κ σ c s rg : ℝ} (hr1 : 6300000 ≤ r) (hr2 : r ≤ 6600000)
    (h1 : κ ^ 2 + σ ^ 2 = 1) (hκ : 0 ≤ κ) (hσ : 0 ≤ σ) (hc : 0 ≤ c) (hcs : c ^ 2 + s ^ 2 = 1)
    (hcκ : c ≤ κ) (hκc : κ - c ≤ 1 / 100) (hσs : σ ≤ s) (hsσ : s - σ ≤ 1 / 100)
    (hrg1 : ea ≤ rg) (hrg2 : rg ≤ 1004 / 1000 * ea) {g : ℝ} (hg0 : 0 < g) (hg1 : g ≤ 1) :
    |(c * (σ * r - k6 * rg * s) - s * (κ * r - rg * c)) /
      (k6 * rg / g + (c * (κ * r - rg * c) + s * (σ * r - k6 * rg * s)))| ≤ 1 / 20 := by
  have hea : ea = 6378137 := rfl
  have hk6 : k6 = 99330562000986220 / 10 ^ 17 := rfl
  have hs0 : 0 ≤ s := hσ.trans hσs
  have hσ1 : σ ≤ 1 := le_of_sq (by norm_num) (by linarith [sq_nonneg κ])
  have hκ1 : κ ≤ 1 := le_of_sq (by norm_num) (by linarith [sq_nonneg σ])
  have hs1 : s ≤ 1 := le_of_sq (by norm_num) (by linarith [sq_nonneg c])
  have hrg0 : 0 < rg := by rw [hea] at hrg1; linarith
  -- the numerator
  have hnum : c * (σ * r - k6 * rg * s) - s * (κ * r - rg * c) =
      r * (-(σ * (κ - c)) - (s - σ) * κ) + s * c * ((1 - k6) * rg) := by ring
  have hn1 : |(-(σ * (κ - c)) - (s - σ) * κ)| ≤ 20 / 1000 := by
    have a1 : σ * (κ - c) ≤ 1 * (1 / 100) :=
      mul_le_mul hσ1 hκc (by linarith) (by norm_num)
    have a2 : 0 ≤ σ * (κ - c) := mul_nonneg hσ (by linarith)
    have a4 : (s - σ) * κ ≤ 1 / 100 * 1 := mul_le_mul hsσ hκ1 hκ (by norm_num)
    have a5 : 0 ≤ (s - σ) * κ := mul_nonneg (by linarith) hκ
    rw [abs_le]; constructor <;> linarith
  have hn2 : |(1 - k6) * rg| ≤ 43000 := by
    have h1k : 0 ≤ 1 - k6 := by rw [hk6]; norm_num
    rw [abs_of_nonneg (mul_nonneg h1k hrg0.le)]
    have : (1 - k6) * rg ≤ (1 - k6) * (1004 / 1000 * ea) := mul_le_mul_of_nonneg_left hrg2 h1k
    refine this.trans ?_
    rw [hk6, hea]; norm_num
  have hsc : |s * c| ≤ 1 / 2 := by
    rw [abs_of_nonneg (mul_nonneg hs0 hc)]
    have : (s - c) ^ 2 = c ^ 2 + s ^ 2 - 2 * (s * c) := by ring
    linarith [sq_nonneg (s - c)]
  have hnum' : |c * (σ * r - k6 * rg * s) - s * (κ * r - rg * c)| ≤ 155000 := by
    rw [hnum]
    refine (abs_add_le _ _).trans ?_
    have b1 := abs_mul_le (show |r| ≤ 6600000 by rw [abs_of_nonneg (by linarith)]; exact hr2) hn1
    have b2 := abs_mul_le hsc hn2
    linarith
  -- the denominator
  have hden : 6000000 ≤ k6 * rg / g + (c * (κ * r - rg * c) + s * (σ * r - k6 * rg * s)) := by
    have hrf0 : 0 ≤ k6 * rg := mul_nonneg (by rw [hk6]; norm_num) hrg0.le
    have d1 : k6 * rg ≤ k6 * rg / g := by
      rw [le_div_iff₀ hg0]; exact mul_le_of_le_one_right hrf0 hg1
    have d2 : 6330000 ≤ k6 * rg := by
      have : k6 * ea ≤ k6 * rg := mul_le_mul_of_nonneg_left hrg1 (by rw [hk6]; norm_num)
      refine le_trans ?_ this
      rw [hk6, hea]; norm_num
    have d3 : c * (κ * r - rg * c) + s * (σ * r - k6 * rg * s) =
        r * (c * κ + s * σ) - rg * c ^ 2 - k6 * rg * s ^ 2 := by ring
    have d4 : 98 / 100 ≤ c * κ + s * σ := by
      have e1 : c ^ 2 ≤ c * κ := by
        rw [sq]; exact mul_le_mul_of_nonneg_left hcκ hc
      have e2 : σ ^ 2 ≤ s * σ := by
        rw [sq]; exact mul_le_mul_of_nonneg_right hσs hσ
      have e3 : s ^ 2 - σ ^ 2 = (s - σ) * (s + σ) := by ring
      have e4 : (s - σ) * (s + σ) ≤ 1 / 100 * 2 :=
        mul_le_mul hsσ (by linarith) (by linarith) (by norm_num)
      linarith
    have d5 : 6300000 * (98 / 100) ≤ r * (c * κ + s * σ) :=
      mul_le_mul hr1 d4 (by norm_num) (by linarith)
    have d6 : k6 * rg * s ^ 2 ≤ rg * s ^ 2 := by
      refine mul_le_mul_of_nonneg_right ?_ (sq_nonneg s)
      exact mul_le_of_le_one_left hrg0.le (by rw [hk6]; norm_num)
    have d7 : rg * c ^ 2 + rg * s ^ 2 = rg := by rw [← mul_add, hcs, mul_one]
    rw [d3]
    rw [hea] at hrg2
    linarith
  rw [abs_div, div_le_iff₀ (lt_of_lt_of_le (by norm_num) (hden.trans (le_abs_self _)))]
  have := le_abs_self (k6 * rg / g + (c * (κ * r - rg * c) + s * (σ * r - k6 * rg * s)))
  linarith

/-- The first guess of the sine, where the cosine is not small. -/
theorem guess_sin {κ σ δ s : ℝ} (h1 : κ ^ 2 + σ ^ 2 = 1) (hκ : 0 ≤ κ) (hσ : 0 ≤ σ)
    (hκ2 : 3 / 10 ≤ κ ^ 2) (hδ0 : 0 ≤ δ) (hδ : δ ≤ 7 / 1000) (hs : s = σ * (1 + δ)) :
    s ^ 2 ≤ 72 / 100 ∧ σ ≤ s ∧ s - σ ≤ 1 / 100 ∧ Real.sqrt (1 - s * s) ≤ κ ∧
      κ - Real.sqrt (1 - s * s) ≤ 1 / 100 := by
  have hσ2 : σ ^ 2 ≤ 7 / 10 := by linarith
  have hσ1 : σ ≤ 1 := le_of_sq (by norm_num) (by linarith)
  have hδ2 : δ * δ ≤ 7 / 1000 * (7 / 1000) := mul_le_mul hδ hδ hδ0 (by norm_num)
  have hσd : σ * δ ≤ 1 * (7 / 1000) := mul_le_mul hσ1 hδ hδ0 (by norm_num)
  have hs2 : s ^ 2 = σ ^ 2 + σ ^ 2 * (2 * δ + δ * δ) := by rw [hs]; ring
  have hx : σ ^ 2 * (2 * δ + δ * δ) ≤ 7 / 10 * (15 / 1000) :=
    mul_le_mul hσ2 (by linarith) (by positivity) (by norm_num)
  have hx0 : 0 ≤ σ ^ 2 * (2 * δ + δ * δ) := by positivity
  have hs72 : s ^ 2 ≤ 72 / 100 := by rw [hs2]; linarith
  have hge : 0 ≤ 1 - s * s := by rw [← sq]; linarith
  have hsq : Real.sqrt (1 - s * s) ^ 2 = 1 - s ^ 2 := by rw [Real.sq_sqrt hge]; ring
  have h5 : 52 / 100 ≤ Real.sqrt (1 - s * s) := Real.le_sqrt_of_sq_le (by rw [← sq]; linarith)
  have h5' : 54 / 100 ≤ κ := le_of_sq hκ (by norm_num; linarith)
  have hle : Real.sqrt (1 - s * s) ≤ κ := le_of_sq hκ (by rw [hsq]; linarith)
  refine ⟨hs72, by rw [hs]; linarith [mul_nonneg hσ hδ0], by rw [hs]; linarith, hle, ?_⟩
  have h12 : (106 : ℝ) / 100 ≤ κ + Real.sqrt (1 - s * s) := by linarith
  have hm := mul_le_mul_of_nonneg_left h12 (sub_nonneg.2 hle)
  have e : (κ - Real.sqrt (1 - s * s)) * (κ + Real.sqrt (1 - s * s)) =
      κ ^ 2 - Real.sqrt (1 - s * s) ^ 2 := by ring
  rw [e, hsq, hs2] at hm
  linarith

/-- The first guess of the cosine, where the cosine is small. -/
theorem guess_cos {κ σ δ c : ℝ} (h1 : κ ^ 2 + σ ^ 2 = 1) (hκ : 0 ≤ κ) (hσ : 0 ≤ σ)
    (hκ2 : κ ^ 2 ≤ 3 / 10) (hδ0 : 0 ≤ δ) (hδ : δ ≤ 7 / 1000) (hc : c = κ * (1 - δ)) :
    c ≤ κ ∧ κ - c ≤ 1 / 100 ∧ σ ≤ Real.sqrt (1 - c * c) ∧
      Real.sqrt (1 - c * c) - σ ≤ 1 / 100 := by
  have hκ1 : κ ≤ 1 := le_of_sq (by norm_num) (by linarith)
  have hκd : κ * δ ≤ 1 * (7 / 1000) := mul_le_mul hκ1 hδ hδ0 (by norm_num)
  have hκd0 : 0 ≤ κ * δ := mul_nonneg hκ hδ0
  have hc2 : c ^ 2 = κ ^ 2 - κ ^ 2 * (δ * (2 - δ)) := by rw [hc]; ring
  have hδδ : δ * (2 - δ) ≤ 7 / 1000 * 2 := mul_le_mul hδ (by linarith) (by linarith) (by norm_num)
  have hδδ0 : 0 ≤ δ * (2 - δ) := mul_nonneg hδ0 (by linarith)
  have hx : κ ^ 2 * (δ * (2 - δ)) ≤ 3 / 10 * (7 / 1000 * 2) :=
    mul_le_mul hκ2 hδδ hδδ0 (by norm_num)
  have hx0 : 0 ≤ κ ^ 2 * (δ * (2 - δ)) := mul_nonneg (sq_nonneg _) hδδ0
  have hge : 0 ≤ 1 - c * c := by rw [← sq]; linarith
  have hsq : Real.sqrt (1 - c * c) ^ 2 = 1 - c ^ 2 := by rw [Real.sq_sqrt hge]; ring
  have hle : σ ≤ Real.sqrt (1 - c * c) := le_of_sq (Real.sqrt_nonneg _) (by rw [hsq]; linarith)
  have h8 : 8 / 10 ≤ σ := le_of_sq hσ (by norm_num; linarith)
  refine ⟨by rw [hc]; linarith, by rw [hc]; linarith, hle, ?_⟩
  have h12 : (16 : ℝ) / 10 ≤ Real.sqrt (1 - c * c) + σ := by linarith
  have hm := mul_le_mul_of_nonneg_left h12 (sub_nonneg.2 hle)
  have e : (Real.sqrt (1 - c * c) - σ) * (Real.sqrt (1 - c * c) + σ) =
      Real.sqrt (1 - c * c) ^ 2 - σ ^ 2 := by ring
  rw [e, hsq, hc2] at hm
  linarith

theorem radius_range {ss : ℝ} (h0 : 0 ≤ ss) (h1 : ss ≤ 1) :
    0 < 1 - e2 * ss ∧ 1 - e2 * ss ≤ 1 ∧ ea ≤ ea / Real.sqrt (1 - e2 * ss) ∧
      ea / Real.sqrt (1 - e2 * ss) ≤ 1004 / 1000 * ea := by
  have h := mul_le_mul_of_nonneg_left h1 e2_pos.1.le
  have h' : e2 * 1 ≤ 1 - (9965 / 10000) ^ 2 := by unfold e2; norm_num
  have hg1 : 1 - e2 * ss ≤ 1 := by
    have := mul_nonneg e2_pos.1.le h0
    linarith
  have hg2 : (9965 / 10000 : ℝ) ^ 2 ≤ 1 - e2 * ss := by linarith
  have hg0 : 0 < 1 - e2 * ss := lt_of_lt_of_le (by norm_num) hg2
  have hsg1 : Real.sqrt (1 - e2 * ss) ≤ 1 := Real.sqrt_le_one.2 hg1
  have hsg0 : 0 < Real.sqrt (1 - e2 * ss) := Real.sqrt_pos.2 hg0
  have hsg2 : 9965 / 10000 ≤ Real.sqrt (1 - e2 * ss) := Real.le_sqrt_of_sq_le hg2
  have hea0 : 0 < ea := by unfold ea; norm_num
  refine ⟨hg0, hg1, ?_, ?_⟩
  · rw [le_div_iff₀ hsg0]; exact mul_le_of_le_one_right hea0.le hsg1
  · rw [div_le_iff₀ hsg0]
    have := mul_le_mul_of_nonneg_left hsg2 (show 0 ≤ 1004 / 1000 * ea by positivity)
    linarith

/-- A point within 3 per cent of the radius of the earth and not too close to its axis gets a
latitude strictly between the equator's other side and the pole. -/
theorem latAbs_range {w2 z : ℝ} (hr1 : 6300000 ^ 2 ≤ w2 + z * z) (hr2 : w2 + z * z ≤ 6600000 ^ 2)
    (hw : 1 / 100 * (w2 + z * z) ≤ w2) :
    -(1 / 20) ≤ latAbs w2 |z| (z * z) ∧ latAbs w2 |z| (z * z) < Real.pi / 2 := by
  have hr0 : 0 < w2 + z * z := lt_of_lt_of_le (by norm_num) hr1
  have hw0 : 0 ≤ w2 := by linarith
  obtain ⟨r, hr⟩ : ∃ r, r = Real.sqrt (w2 + z * z) := ⟨_, rfl⟩
  obtain ⟨w, hwd⟩ : ∃ w, w = Real.sqrt w2 := ⟨_, rfl⟩
  have hrsq : r ^ 2 = w2 + z * z := by rw [hr]; exact Real.sq_sqrt hr0.le
  have hwsq : w ^ 2 = w2 := by rw [hwd]; exact Real.sq_sqrt hw0
  have hrp : 0 < r := by rw [hr]; exact Real.sqrt_pos.2 hr0
  have hwp : 0 ≤ w := by rw [hwd]; exact Real.sqrt_nonneg _
  have hr1' : 6300000 ≤ r := by rw [hr]; exact Real.le_sqrt_of_sq_le hr1
  have hr2' : r ≤ 6600000 := by
    rw [hr]; exact Real.sqrt_le_iff.2 ⟨by norm_num, hr2⟩
  obtain ⟨κ, hκ⟩ : ∃ κ, κ = w / r := ⟨_, rfl⟩
  obtain ⟨σ, hσ⟩ : ∃ σ, σ = |z| / r := ⟨_, rfl⟩
  have hκ0 : 0 ≤ κ := by rw [hκ]; positivity
  have hσ0 : 0 ≤ σ := by rw [hσ]; positivity
  have hc2 : w2 / (w2 + z * z) = κ ^ 2 := by rw [hκ, div_pow, hwsq, hrsq]
  have hs2 : z * z / (w2 + z * z) = σ ^ 2 := by rw [hσ, div_pow, sq_abs, hrsq, sq]
  have hwκ : w = κ * r := by rw [hκ, div_mul_cancel₀ _ hrp.ne']
  have hzσ : |z| = σ * r := by rw [hσ, div_mul_cancel₀ _ hrp.ne']
  have h1 : κ ^ 2 + σ ^ 2 = 1 := by
    rw [← hc2, ← hs2, ← add_div, div_self hr0.ne']
  have hκ2 : (1 / 10) ^ 2 ≤ κ ^ 2 := by rw [← hc2, le_div_iff₀ hr0]; norm_num; linarith
  have hκ10 : 1 / 10 ≤ κ := le_of_sq hκ0 hκ2
  have hk1 : k1 = 42697672707157535 / 10 ^ 12 := rfl
  have hk2 : k2 = 18230912546075455 / 10 ^ 7 := rfl
  have hk3 : k3 = 14291722289812413 / 10 ^ 14 := rfl
  have hk4 : k4 = 45577281365188637 / 10 ^ 7 := rfl
  have hk5 : k5 = 42840589930055659 / 10 ^ 12 := rfl
  have q2 : 0 ≤ k2 / r ∧ k2 / r ≤ 300 := by
    constructor
    · rw [hk2]; positivity
    · rw [div_le_iff₀ hrp, hk2]
      have : (300 : ℝ) * 6300000 ≤ 300 * r := by linarith
      refine le_trans ?_ this
      norm_num
  have q4 : 0 ≤ k4 / r ∧ k4 / r ≤ 800 := by
    constructor
    · rw [hk4]; positivity
    · rw [div_le_iff₀ hrp, hk4]
      have : (800 : ℝ) * 6300000 ≤ 800 * r := by linarith
      refine le_trans ?_ this
      norm_num
  have hσ1 : σ ^ 2 ≤ 1 := by linarith [sq_nonneg κ]
  have hκ1 : κ ^ 2 ≤ 1 := by linarith [sq_nonneg σ]
  have q6 : |k3 - k4 / r| ≤ 800 := by
    rw [abs_le, hk3]
    constructor <;> norm_num <;> linarith [q4.1, q4.2]
  have q5 : ∀ t : ℝ, 0 ≤ t → t ≤ 1 → -800 ≤ t * (k3 - k4 / r) ∧ t * (k3 - k4 / r) ≤ 800 := by
    intro t ht0 ht1
    have := abs_mul_le (show |t| ≤ 1 by rw [abs_of_nonneg ht0]; exact ht1) q6
    rw [abs_le] at this
    constructor <;> linarith [this.1, this.2]
  have hδb : ∀ t K : ℝ, 0 ≤ t → t ≤ 1 → 0 ≤ K → K ≤ 44000 → 0 ≤ t * K / r ∧ t * K / r ≤ 7 / 1000 := by
    intro t K ht0 ht1 hK0 hK1
    refine ⟨by positivity, ?_⟩
    rw [div_le_iff₀ hrp]
    have : t * K ≤ 1 * 44000 := mul_le_mul ht1 hK1 hK0 (by norm_num)
    linarith
  unfold latAbs
  simp only [← hr, ← hwd, hc2, hs2, ← hκ, ← hσ]
  by_cases hb : 0.3 < κ ^ 2
  · simp only [if_pos hb]
    obtain ⟨δ, hδ⟩ : ∃ δ, δ = κ ^ 2 * (k1 + k2 / r + σ ^ 2 * (k3 - k4 / r)) / r := ⟨_, rfl⟩
    have hq := q5 _ (sq_nonneg σ) hσ1
    have hδ' := hδb (κ ^ 2) (k1 + k2 / r + σ ^ 2 * (k3 - k4 / r)) (sq_nonneg _) hκ1
      (by rw [hk1]; norm_num; linarith [q2.1, hq.1])
      (by
        have : k1 ≤ 42698 := by rw [hk1]; norm_num
        linarith [q2.2, hq.2])
    rw [← hδ] at hδ' ⊢
    obtain ⟨s, hs⟩ : ∃ s, s = σ * (1 + δ) := ⟨_, rfl⟩
    rw [← hs]
    have hg := guess_sin h1 hκ0 hσ0 (by norm_num at hb ⊢; linarith) hδ'.1 hδ'.2 hs
    have hs0 : 0 ≤ s := hσ0.trans hg.2.1
    have hrr := radius_range (mul_self_nonneg s) (by rw [← sq]; linarith [hg.1])
    have hc0 := Real.sqrt_nonneg (1 - s * s)
    have hp := newton_small hr1' hr2' h1 hκ0 hσ0 hc0
      (by rw [Real.sq_sqrt (by rw [← sq]; linarith [hg.1])]; ring) hg.2.2.2.1 hg.2.2.2.2 hg.2.1
      hg.2.2.1 hrr.2.2.1 hrr.2.2.2 hrr.1 hrr.2.1
    rw [← hwκ, ← hzσ] at hp
    rw [abs_le] at hp
    have ha0 : 0 ≤ Real.arcsin s := Real.arcsin_nonneg.2 hs0
    have ha1 : Real.arcsin s ≤ Real.pi / 2 - 1 / 10 := by
      have hpi := Real.pi_gt_three
      rw [Real.arcsin_le_iff_le_sin ⟨by linarith, le_of_sq (by norm_num) (by linarith [hg.1])⟩
        ⟨by linarith, by linarith⟩, Real.sin_pi_div_two_sub]
      have := Real.one_sub_sq_div_two_le_cos (x := 1 / 10)
      refine le_trans (le_of_sq (b := 9 / 10) (by norm_num) ?_) (le_trans ?_ this)
      · norm_num; linarith [hg.1]
      · norm_num
    constructor
    · linarith [hp.1]
    · linarith [hp.2]
  · simp only [if_neg hb]
    obtain ⟨δ, hδ⟩ : ∃ δ, δ = σ ^ 2 * (k5 - k2 / r - κ ^ 2 * (k3 - k4 / r)) / r := ⟨_, rfl⟩
    have hq := q5 _ (sq_nonneg κ) hκ1
    have hδ' := hδb (σ ^ 2) (k5 - k2 / r - κ ^ 2 * (k3 - k4 / r)) (sq_nonneg _) hσ1
      (by rw [hk5]; norm_num; linarith [q2.2, hq.2])
      (by
        have : k5 ≤ 42841 := by rw [hk5]; norm_num
        linarith [q2.1, hq.1])
    rw [← hδ] at hδ' ⊢
    obtain ⟨c, hc⟩ : ∃ c, c = κ * (1 - δ) := ⟨_, rfl⟩
    rw [← hc]
    have hκ3 : κ ^ 2 ≤ 3 / 10 := by norm_num at hb ⊢; linarith
    have hg := guess_cos h1 hκ0 hσ0 hκ3 hδ'.1 hδ'.2 hc
    have hc0 : 9 / 100 ≤ c := by
      rw [hc]
      have := mul_le_mul hκ10 (show 99 / 100 ≤ 1 - δ by linarith [hδ'.2]) (by norm_num) hκ0
      linarith
    have hcc : c * c ≤ 3 / 10 := by
      have := mul_le_mul hg.1 hg.1 (by linarith) hκ0
      rw [← sq, ← sq] at this
      rw [← sq]
      linarith
    have hrr := radius_range (ss := 1 - c * c) (by linarith) (by linarith [mul_self_nonneg c])
    have hp := newton_small (s := Real.sqrt (1 - c * c)) hr1' hr2' h1 hκ0 hσ0 (by linarith)
      (by rw [Real.sq_sqrt (by linarith)]; ring) hg.1 hg.2.1 hg.2.2.1
      hg.2.2.2 hrr.2.2.1 hrr.2.2.2 hrr.1 hrr.2.1
    rw [← hwκ, ← hzσ] at hp
    rw [abs_le] at hp
    have ha0 : 0 ≤ Real.arccos c := Real.arccos_nonneg c
    have ha1 : Real.arccos c < Real.pi / 2 - 1 / 20 := by
      have hpi := Real.pi_gt_three
      have h20 : Real.sin (1 / 20) < c := lt_of_lt_of_le (Real.sin_lt (by norm_num)) (by linarith)
      rw [Real.arccos]
      have : 1 / 20 < Real.arcsin c := by
        rw [Real.lt_arcsin_iff_sin_lt ⟨by linarith, by linarith⟩]
        · exact h20
        · exact ⟨by linarith, le_of_sq (by norm_num) (by rw [sq]; linarith)⟩
      linarith
    constructor
    · linarith [hp.1]
    · linarith [hp.2]

/-! ## The longitude survives -/

/-- The longitude of a point near the surface of the earth is the one of its projection to the
surface. -/
theorem lon_project {x y z : ℝ} (hr1 : 6300000 ^ 2 ≤ x * x + y * y + z * z)
    (hr2 : x * x + y * y + z * z ≤ 6600000 ^ 2)
    (hw : 1 / 100 * (x * x + y * y + z * z) ≤ x * x + y * y) :
    ecef2ll (ll2ecef (ecef2ll ![x, y, z])) 1 = atan2 y x * 180 / Real.pi := by
  have hpi := Real.pi_pos
  have hpi3 := Real.pi_gt_three
  have hl := latAbs_range hr1 hr2 hw
  have hlat : -90 < ecef2ll ![x, y, z] 0 ∧ ecef2ll ![x, y, z] 0 < 90 := by
    rw [ecef2ll_lat]
    rw [lt_div_iff₀ hpi, div_lt_iff₀ hpi]
    by_cases hz : z < 0
    · rw [if_pos hz]; constructor <;> linarith [hl.1, hl.2]
    · rw [if_neg hz]; constructor <;> linarith [hl.1, hl.2]
  have hlon : ecef2ll ![x, y, z] 1 = atan2 y x * 180 / Real.pi := rfl
  have hr : -180 < ecef2ll ![x, y, z] 1 ∧ ecef2ll ![x, y, z] 1 ≤ 180 := by
    rw [hlon, lt_div_iff₀ hpi, div_le_iff₀ hpi]
    have h1 := Complex.neg_pi_lt_arg ⟨x, y⟩
    have h2 := Complex.arg_le_pi ⟨x, y⟩
    unfold atan2
    constructor <;> linarith
  have := (C50_longitude (ecef2ll ![x, y, z] 0) (ecef2ll ![x, y, z] 1) 0 hlat.1 hlat.2 hr.1 hr.2
    (by linarith [nrad_pos (ecef2ll ![x, y, z] 0)])).2
  rw [← hlon]
  rw [show ecef2ll ![x, y, z] = ![ecef2ll ![x, y, z] 0, ecef2ll ![x, y, z] 1] from ?_]
  · exact this
  · funext i; fin_cases i <;> rfl

/-- The distance from the axis of the earth after going `n` metres north of the latitude `φ`. -/
noncomputable def axisDist (φ n : ℝ) : ℝ := nrad φ * cosd φ - n * sind φ

/-- The change of longitude, in degrees, of going `n` metres north and `e` metres east. -/
noncomputable def lonShift (φ n e : ℝ) : ℝ := Real.arctan (e / axisDist φ n) * 180 / Real.pi

theorem nePoint (φ l n e : ℝ) : ll2ecef ![φ, l] + (nedrot φ l)ᵀ *ᵥ ![n, e, 0] =
    ![axisDist φ n * cosd l - e * sind l, axisDist φ n * sind l + e * cosd l,
      nrad φ * (1 - e2) * sind φ + n * cosd φ] := by
  funext i
  fin_cases i <;>
    simp [ll2ecef, nedrot, axisDist, Matrix.mulVec, dotProduct, Fin.sum_univ_three] <;> ring

theorem cosd_ge {φ : ℝ} (h : |φ| ≤ 75) : 1 / 6 ≤ cosd φ := by
  have hpi := Real.pi_pos
  have e : cosd φ = Real.sin (Real.pi / 2 - |φ| * Real.pi / 180) := by
    rw [Real.sin_pi_div_two_sub]
    unfold cosd
    rcases abs_cases φ with ⟨h', -⟩ | ⟨h', -⟩
    · rw [h']
    · rw [h', show -φ * Real.pi / 180 = -(φ * Real.pi / 180) by ring, Real.cos_neg]
  have hm : |φ| * Real.pi ≤ 75 * Real.pi := mul_le_mul_of_nonneg_right h hpi.le
  have hm0 : 0 ≤ |φ| * Real.pi := mul_nonneg (abs_nonneg _) hpi.le
  have h1 := Real.mul_le_sin (x := Real.pi / 2 - |φ| * Real.pi / 180) (by linarith) (by linarith)
  rw [e]
  refine le_trans ?_ h1
  have : 2 / Real.pi * (Real.pi / 2 - |φ| * Real.pi / 180) = 1 - |φ| / 90 := by
    field_simp
    ring
  rw [this]; linarith

theorem sin_cos_sq (φ : ℝ) : sind φ ^ 2 + cosd φ ^ 2 = 1 := Real.sin_sq_add_cos_sq _

theorem abs_sind_le (φ : ℝ) : |sind φ| ≤ 1 := Real.abs_sin_le_one _

theorem abs_cosd_le (φ : ℝ) : |cosd φ| ≤ 1 := Real.abs_cos_le_one _

theorem nrad_range (φ : ℝ) : ea ≤ nrad φ ∧ nrad φ ≤ 1004 / 1000 * ea := by
  have h := radius_range (mul_self_nonneg (sind φ))
    (by rw [← sq]; linarith [sin_cos_sq φ, sq_nonneg (cosd φ)])
  exact h.2.2

theorem axisDist_ge {φ n : ℝ} (h : |φ| ≤ 75) (hn : |n| ≤ 100000) : 960000 ≤ axisDist φ n := by
  have hc := cosd_ge h
  have hN := (nrad_range φ).1
  have h1 : ea * (1 / 6) ≤ nrad φ * cosd φ :=
    mul_le_mul hN hc (by norm_num) (nrad_pos φ).le
  have h2 := abs_mul_le hn (abs_sind_le φ)
  rw [abs_le] at h2
  unfold axisDist
  have : ea = 6378137 := rfl
  rw [this] at h1
  linarith [h2.2]

theorem point_range {φ l n e : ℝ} (h : |φ| ≤ 75) (hn : |n| ≤ 100000) (he : |e| ≤ 100000) :
    let x := axisDist φ n * cosd l - e * sind l
    let y := axisDist φ n * sind l + e * cosd l
    let z := nrad φ * (1 - e2) * sind φ + n * cosd φ
    6300000 ^ 2 ≤ x * x + y * y + z * z ∧ x * x + y * y + z * z ≤ 6600000 ^ 2 ∧
      1 / 100 * (x * x + y * y + z * z) ≤ x * x + y * y := by
  intro x y z
  have hA := axisDist_ge h hn
  have hxy : x * x + y * y = axisDist φ n ^ 2 + e ^ 2 := by
    have := sin_cos_sq l
    show (axisDist φ n * cosd l - e * sind l) * (axisDist φ n * cosd l - e * sind l) +
      (axisDist φ n * sind l + e * cosd l) * (axisDist φ n * sind l + e * cosd l) = _
    have e1 : (axisDist φ n * cosd l - e * sind l) * (axisDist φ n * cosd l - e * sind l) +
      (axisDist φ n * sind l + e * cosd l) * (axisDist φ n * sind l + e * cosd l) =
      (axisDist φ n ^ 2 + e ^ 2) * (sind l ^ 2 + cosd l ^ 2) := by ring
    rw [e1, this, mul_one]
  have hAz : axisDist φ n ^ 2 + z * z = nrad φ ^ 2 * (cosd φ ^ 2 + (1 - e2) ^ 2 * sind φ ^ 2) +
      n ^ 2 - 2 * (n * (nrad φ * (e2 * (sind φ * cosd φ)))) := by
    have e1 : axisDist φ n ^ 2 + z * z = nrad φ ^ 2 * (cosd φ ^ 2 + (1 - e2) ^ 2 * sind φ ^ 2) +
      n ^ 2 * (sind φ ^ 2 + cosd φ ^ 2) - 2 * (n * (nrad φ * (e2 * (sind φ * cosd φ)))) := by
      show (nrad φ * cosd φ - n * sind φ) ^ 2 + (nrad φ * (1 - e2) * sind φ + n * cosd φ) *
        (nrad φ * (1 - e2) * sind φ + n * cosd φ) = _
      ring
    rw [e1, sin_cos_sq, mul_one]
  have hN := nrad_range φ
  have hea : ea = 6378137 := rfl
  rw [hea] at hN
  have hN0 := nrad_pos φ
  have hcross : |n * (nrad φ * (e2 * (sind φ * cosd φ)))| ≤ 5000000000 := by
    have a1 := abs_mul_le (abs_sind_le φ) (abs_cosd_le φ)
    have a2 := abs_mul_le (show |e2| ≤ 7 / 1000 by
      rw [abs_of_pos e2_pos.1]; unfold e2; norm_num) a1
    have a3 := abs_mul_le (show |nrad φ| ≤ 6500000 by
      rw [abs_of_pos hN0]; linarith [hN.2]) a2
    have a4 := abs_mul_le hn a3
    refine a4.trans ?_
    norm_num
  rw [abs_le] at hcross
  have hn2 : n ^ 2 ≤ 100000 ^ 2 := by rw [← sq_abs]; exact pow_le_pow_left₀ (abs_nonneg _) hn 2
  have he2 : e ^ 2 ≤ 100000 ^ 2 := by rw [← sq_abs]; exact pow_le_pow_left₀ (abs_nonneg _) he 2
  have hq1 : (1 - e2) ^ 2 ≤ 1 := pow_le_one₀ (by linarith [e2_pos.2]) (by linarith [e2_pos.1])
  have hq0 : 98 / 100 ≤ (1 - e2) ^ 2 := by unfold e2; norm_num
  have hsc := sin_cos_sq φ
  have hm1 := mul_le_mul_of_nonneg_right hq1 (sq_nonneg (sind φ))
  have hm0 := mul_le_mul_of_nonneg_right hq0 (sq_nonneg (sind φ))
  have hf1 : cosd φ ^ 2 + (1 - e2) ^ 2 * sind φ ^ 2 ≤ 1 := by linarith
  have hf0 : 98 / 100 ≤ cosd φ ^ 2 + (1 - e2) ^ 2 * sind φ ^ 2 := by
    linarith [sq_nonneg (cosd φ)]
  have hNsq1 : nrad φ ^ 2 ≤ 6404000 ^ 2 := pow_le_pow_left₀ hN0.le (by linarith [hN.2]) 2
  have hNsq0 : 6378137 ^ 2 ≤ nrad φ ^ 2 := pow_le_pow_left₀ (by norm_num) hN.1 2
  have hp1 : nrad φ ^ 2 * (cosd φ ^ 2 + (1 - e2) ^ 2 * sind φ ^ 2) ≤ 6404000 ^ 2 * 1 :=
    mul_le_mul hNsq1 hf1 (by linarith) (by norm_num)
  have hp0 : 6378137 ^ 2 * (98 / 100) ≤ nrad φ ^ 2 * (cosd φ ^ 2 + (1 - e2) ^ 2 * sind φ ^ 2) :=
    mul_le_mul hNsq0 hf0 (by norm_num) (sq_nonneg _)
  have hAsq : 960000 ^ 2 ≤ axisDist φ n ^ 2 := pow_le_pow_left₀ (by norm_num) hA 2
  rw [hxy]
  have hre : axisDist φ n ^ 2 + e ^ 2 + z * z = (axisDist φ n ^ 2 + z * z) + e ^ 2 := by ring
  rw [hre, hAz]
  have := sq_nonneg n
  have := sq_nonneg e
  refine ⟨?_, ?_, ?_⟩ <;> linarith [hcross.1, hcross.2]

theorem atan2_polar {R t : ℝ} (hR : 0 < R) (h1 : -Real.pi < t) (h2 : t ≤ Real.pi) :
    atan2 (R * Real.sin t) (R * Real.cos t) = t := by
  unfold atan2
  rw [show (⟨R * Real.cos t, R * Real.sin t⟩ : ℂ) = (R : ℂ) *
    (Complex.cos (t : ℂ) + Complex.sin (t : ℂ) * Complex.I) from ?_]
  · exact Complex.arg_mul_cos_add_sin_mul_I hR ⟨h1, h2⟩
  · apply Complex.ext
    · simp [Complex.cos_ofReal_re]
    · simp [Complex.sin_ofReal_re, Complex.cos_ofReal_im]

/-- `lonShift` is less than six degrees. -/
theorem lonShift_range {φ n e : ℝ} (h : |φ| ≤ 75) (hn : |n| ≤ 100000) (he : |e| ≤ 100000) :
    |lonShift φ n e| < 6 := by
  have hA := axisDist_ge h hn
  have hA0 : 0 < axisDist φ n := by linarith
  have hpi3 := Real.pi_gt_d2
  have hpi := Real.pi_pos
  have h1 : |Real.arctan (e / axisDist φ n)| ≤ |e / axisDist φ n| := by
    rcases le_total 0 (e / axisDist φ n) with h0 | h0
    · rw [abs_of_nonneg (Real.arctan_nonneg.2 h0), abs_of_nonneg h0]
      exact arctan_le_self h0
    · rw [abs_of_nonpos h0, ← abs_neg, ← Real.arctan_neg,
        abs_of_nonneg (Real.arctan_nonneg.2 (by linarith))]
      exact arctan_le_self (by linarith)
  have h2 : |e / axisDist φ n| ≤ 10417 / 100000 := by
    rw [abs_div, abs_of_pos hA0, div_le_iff₀ hA0]; linarith
  unfold lonShift
  rw [abs_div, abs_mul, abs_of_pos hpi, div_lt_iff₀ hpi, abs_of_pos (show (0 : ℝ) < 180 by norm_num)]
  linarith

/-- C81: the longitude of the point `n` metres north and `e` metres east of a place, where the
tracker takes longitudes between -180 and 180. -/
theorem C81_longitude {φ l n e : ℝ} (h : |φ| ≤ 75) (h1 : -180 < l) (h2 : l ≤ 180)
    (hn : |n| ≤ 100000) (he : |e| ≤ 100000) :
    ne2ll ![n, e] ![φ, l] 1 =
      if l + lonShift φ n e ≤ -180 then l + lonShift φ n e + 360
      else if 180 < l + lonShift φ n e then l + lonShift φ n e - 360
      else l + lonShift φ n e := by
  have hpi := Real.pi_pos
  have hA := axisDist_ge h hn
  have hA0 : 0 < axisDist φ n := by linarith
  obtain ⟨q1, q2, q3⟩ := point_range (l := l) h hn he
  have hlon : ne2ll ![n, e] ![φ, l] 1 = atan2 (axisDist φ n * sind l + e * cosd l)
      (axisDist φ n * cosd l - e * sind l) * 180 / Real.pi := by
    rw [← lon_project q1 q2 q3, ← nePoint]
    rfl
  obtain ⟨α, hα⟩ : ∃ α, α = Real.arctan (e / axisDist φ n) := ⟨_, rfl⟩
  have hca : 0 < Real.cos α := by rw [hα]; exact Real.cos_arctan_pos _
  have ht : Real.sin α = e / axisDist φ n * Real.cos α := by
    have := Real.tan_arctan (e / axisDist φ n)
    rw [← hα, Real.tan_eq_sin_div_cos, div_eq_iff hca.ne'] at this
    exact this
  obtain ⟨R, hRd⟩ : ∃ R, R = axisDist φ n / Real.cos α := ⟨_, rfl⟩
  have hR : 0 < R := by rw [hRd]; exact div_pos hA0 hca
  have hRc : axisDist φ n = R * Real.cos α := by
    rw [hRd, div_mul_cancel₀ _ hca.ne']
  have hRs : e = R * Real.sin α := by
    rw [ht, hRd]; field_simp
  obtain ⟨t, htd⟩ : ∃ t, t = l * Real.pi / 180 + α := ⟨_, rfl⟩
  have hx : axisDist φ n * cosd l - e * sind l = R * Real.cos t := by
    rw [htd, Real.cos_add]
    unfold cosd sind
    rw [hRc]
    conv_lhs => rw [hRs]
    ring
  have hy : axisDist φ n * sind l + e * cosd l = R * Real.sin t := by
    rw [htd, Real.sin_add]
    unfold cosd sind
    rw [hRc]
    conv_lhs => rw [hRs]
    ring
  have hs : lonShift φ n e = α * 180 / Real.pi := by rw [hα]; rfl
  have htl : l + lonShift φ n e = t * 180 / Real.pi := by
    rw [hs, htd]; field_simp
  have hr := lonShift_range h hn he
  rw [abs_lt] at hr
  have htb : t = (l + lonShift φ n e) * Real.pi / 180 := by rw [htl]; field_simp
  rw [hlon, hx, hy]
  by_cases c1 : l + lonShift φ n e ≤ -180
  · rw [if_pos c1]
    have e1 : Real.cos t = Real.cos (t + 2 * Real.pi) := (Real.cos_add_two_pi t).symm
    have e2 : Real.sin t = Real.sin (t + 2 * Real.pi) := (Real.sin_add_two_pi t).symm
    have b1 : (-186) * Real.pi ≤ (l + lonShift φ n e) * Real.pi :=
      mul_le_mul_of_nonneg_right (by linarith [hr.1]) hpi.le
    have b2 : (l + lonShift φ n e) * Real.pi ≤ -180 * Real.pi :=
      mul_le_mul_of_nonneg_right c1 hpi.le
    rw [e1, e2, atan2_polar hR (by rw [htb]; linarith) (by rw [htb]; linarith), htl]
    field_simp
    ring
  · rw [if_neg c1]
    push Not at c1
    by_cases c2 : 180 < l + lonShift φ n e
    · rw [if_pos c2]
      have e1 : Real.cos t = Real.cos (t - 2 * Real.pi) := (Real.cos_sub_two_pi t).symm
      have e2 : Real.sin t = Real.sin (t - 2 * Real.pi) := (Real.sin_sub_two_pi t).symm
      have b1 : (l + lonShift φ n e) * Real.pi ≤ 186 * Real.pi :=
        mul_le_mul_of_nonneg_right (by linarith [hr.2]) hpi.le
      have b2 : 180 * Real.pi < (l + lonShift φ n e) * Real.pi :=
        mul_lt_mul_of_pos_right c2 hpi
      rw [e1, e2, atan2_polar hR (by rw [htb]; linarith) (by rw [htb]; linarith), htl]
      field_simp
      ring
    · rw [if_neg c2]
      push Not at c2
      have b1 : (l + lonShift φ n e) * Real.pi ≤ 180 * Real.pi :=
        mul_le_mul_of_nonneg_right c2 hpi.le
      have b2 : (-180) * Real.pi < (l + lonShift φ n e) * Real.pi :=
        mul_lt_mul_of_pos_right c1 hpi
      rw [atan2_polar hR (by rw [htb]; linarith) (by rw [htb]; linarith), htl]

/-! ## The boxes -/

theorem lonShift_lt {φ n e n' e' : ℝ} (h : e / axisDist φ n < e' / axisDist φ n') :
    lonShift φ n e < lonShift φ n' e' := by
  unfold lonShift
  have hpi := Real.pi_pos
  have := Real.arctan_strictMono h
  rw [div_lt_div_iff_of_pos_right hpi]
  linarith

theorem lonShift_neg {φ n e : ℝ} (h : |φ| ≤ 75) (hn : |n| ≤ 100000) (he : e < 0) :
    lonShift φ n e < 0 := by
  have hA := axisDist_ge h hn
  have h0 : lonShift φ n 0 = 0 := by simp [lonShift]
  rw [← h0]
  apply lonShift_lt
  rw [zero_div]
  exact div_neg_of_neg_of_pos he (by linarith)

theorem lonShift_pos {φ n e : ℝ} (h : |φ| ≤ 75) (hn : |n| ≤ 100000) (he : 0 < e) :
    0 < lonShift φ n e := by
  have hA := axisDist_ge h hn
  have h0 : lonShift φ n 0 = 0 := by simp [lonShift]
  rw [← h0]
  apply lonShift_lt
  rw [zero_div]
  exact div_pos he (by linarith)

/-- The numbers of a box of at most 100 km to each side, around the place it is relative to. -/
structure Local (b : AABB ℝ) : Prop where
  x0 : |b.x0| ≤ 100000
  x1 : |b.x1| ≤ 100000
  y0 : |b.y0| ≤ 100000
  y1 : |b.y1| ≤ 100000
  hx : b.x0 < b.x1
  west : b.y0 < 0
  east : 0 < b.y1

theorem llaabbox_y (b : AABB ℝ) (o : Fin 2 → ℝ) :
    (llaabbox b o).y0 = min (ne2ll ![b.x0, b.y0] o 1) (ne2ll ![b.x1, b.y1] o 1) ∧
    (llaabbox b o).y1 = max (ne2ll ![b.x0, b.y0] o 1) (ne2ll ![b.x1, b.y1] o 1) := ⟨rfl, rfl⟩

/-- C81: a box that does not cross the antimeridian spans the longitudes from its south-west to
its north-east corner, the place it is relative to among them. -/
theorem C81_longitude_range {φ l : ℝ} {b : AABB ℝ} (h : |φ| ≤ 75) (h1 : -180 < l) (h2 : l ≤ 180)
    (hb : Local b) (hw : -180 < l + lonShift φ b.x0 b.y0) (he : l + lonShift φ b.x1 b.y1 ≤ 180) :
    (llaabbox b ![φ, l]).y0 = l + lonShift φ b.x0 b.y0 ∧
    (llaabbox b ![φ, l]).y1 = l + lonShift φ b.x1 b.y1 ∧
    (llaabbox b ![φ, l]).y0 < l ∧ l < (llaabbox b ![φ, l]).y1 := by
  have n0 := lonShift_neg h hb.x0 hb.west
  have n1 := lonShift_pos h hb.x1 hb.east
  have e0 : ne2ll ![b.x0, b.y0] ![φ, l] 1 = l + lonShift φ b.x0 b.y0 := by
    rw [C81_longitude h h1 h2 hb.x0 hb.y0, if_neg (by linarith), if_neg (by linarith)]
  have e1 : ne2ll ![b.x1, b.y1] ![φ, l] 1 = l + lonShift φ b.x1 b.y1 := by
    rw [C81_longitude h h1 h2 hb.x1 hb.y1, if_neg (by linarith), if_neg (by linarith)]
  have hy := llaabbox_y b ![φ, l]
  rw [e0, e1, min_eq_left (by linarith), max_eq_right (by linarith)] at hy
  rw [hy.1, hy.2]
  exact ⟨rfl, rfl, by linarith, by linarith⟩

theorem not_within {a : AABB ℝ} {p : Pt ℝ} (h : p.2 < a.y0 ∨ a.y1 < p.2) : a.within p = false := by
  unfold AABB.within
  rcases h with h | h <;> simp [h]

theorem sind_pos {φ : ℝ} (h0 : 0 < φ) (h : φ ≤ 75) : 0 < sind φ := by
  have hpi := Real.pi_pos
  unfold sind
  apply Real.sin_pos_of_pos_of_lt_pi
  · positivity
  · have := mul_le_mul_of_nonneg_right h hpi.le
    linarith

/-- C81, refuted in the north: the index box of a local box never covers it.  Every point of the
western edge except its southern end has a longitude below the box. -/
theorem C81_corner_north_refuted {φ l n : ℝ} {b : AABB ℝ} (h0 : 0 < φ) (h : φ ≤ 75)
    (h1 : -180 < l) (h2 : l ≤ 180) (hb : Local b) (hw : -180 < l + lonShift φ b.x1 b.y0)
    (he : l + lonShift φ b.x1 b.y1 ≤ 180) (hn0 : b.x0 < n) (hn1 : n ≤ b.x1) :
    (llaabbox b ![φ, l]).within
      (ne2ll ![n, b.y0] ![φ, l] 0, ne2ll ![n, b.y0] ![φ, l] 1) = false := by
  have ha : |φ| ≤ 75 := by rw [abs_of_pos h0]; exact h
  have hs := sind_pos h0 h
  have hx0 := hb.x0
  have hx1 := hb.x1
  rw [abs_le] at hx0 hx1
  have hn : |n| ≤ 100000 := abs_le.2 ⟨by linarith [hx0.1], by linarith [hx1.2]⟩
  have key : ∀ {p q : ℝ}, |p| ≤ 100000 → |q| ≤ 100000 → p < q →
      lonShift φ q b.y0 < lonShift φ p b.y0 := by
    intro p q hp hq hpq
    apply lonShift_lt
    have hA := axisDist_ge ha hp
    have hB := axisDist_ge ha hq
    have hlt : axisDist φ q < axisDist φ p := by
      unfold axisDist
      have := mul_lt_mul_of_pos_right hpq hs
      linarith
    rw [div_lt_div_iff₀ (by linarith) (by linarith)]
    exact mul_lt_mul_of_neg_left hlt hb.west
  have k1 : lonShift φ b.x1 b.y0 ≤ lonShift φ n b.y0 := by
    rcases eq_or_lt_of_le hn1 with e | hlt
    · rw [e]
    · exact (key hn hb.x1 hlt).le
  have k2 := key hb.x0 hn hn0
  have hneg := lonShift_neg ha hn hb.west
  have hr := C81_longitude_range ha h1 h2 hb (by linarith) he
  refine not_within (Or.inl ?_)
  show ne2ll ![n, b.y0] ![φ, l] 1 < _
  rw [hr.1, C81_longitude ha h1 h2 hn hb.y0, if_neg (by linarith), if_neg (by linarith)]
  linarith

/-- C81, refuted in the south: there it is the eastern edge. -/
theorem C81_corner_south_refuted {φ l n : ℝ} {b : AABB ℝ} (h0 : φ < 0) (h : -75 ≤ φ)
    (h1 : -180 < l) (h2 : l ≤ 180) (hb : Local b) (hw : -180 < l + lonShift φ b.x0 b.y0)
    (he : l + lonShift φ b.x0 b.y1 ≤ 180) (hn0 : b.x0 ≤ n) (hn1 : n < b.x1) :
    (llaabbox b ![φ, l]).within
      (ne2ll ![n, b.y1] ![φ, l] 0, ne2ll ![n, b.y1] ![φ, l] 1) = false := by
  have ha : |φ| ≤ 75 := by rw [abs_of_neg h0]; linarith
  have hs : sind φ < 0 := by
    have := sind_pos (φ := -φ) (by linarith) (by linarith)
    have e : sind (-φ) = -sind φ := by
      unfold sind; rw [show -φ * Real.pi / 180 = -(φ * Real.pi / 180) by ring, Real.sin_neg]
    linarith
  have hx0 := hb.x0
  have hx1 := hb.x1
  rw [abs_le] at hx0 hx1
  have hn : |n| ≤ 100000 := abs_le.2 ⟨by linarith [hx0.1], by linarith [hx1.2]⟩
  have key : ∀ {p q : ℝ}, |p| ≤ 100000 → |q| ≤ 100000 → p < q →
      lonShift φ q b.y1 < lonShift φ p b.y1 := by
    intro p q hp hq hpq
    apply lonShift_lt
    have hA := axisDist_ge ha hp
    have hB := axisDist_ge ha hq
    have hlt : axisDist φ p < axisDist φ q := by
      unfold axisDist
      have := mul_lt_mul_of_neg_right hpq hs
      linarith
    rw [div_lt_div_iff₀ (by linarith) (by linarith)]
    exact mul_lt_mul_of_pos_left hlt hb.east
  have k1 : lonShift φ n b.y1 ≤ lonShift φ b.x0 b.y1 := by
    rcases eq_or_lt_of_le hn0 with e | hlt
    · rw [e]
    · exact (key hb.x0 hn hlt).le
  have k2 := key hn hb.x1 hn1
  have hpos := lonShift_pos ha hn hb.east
  have hr := C81_longitude_range ha h1 h2 hb hw (by linarith)
  refine not_within (Or.inr ?_)
  show _ < ne2ll ![n, b.y1] ![φ, l] 1
  rw [hr.2.1, C81_longitude ha h1 h2 hn hb.y1, if_neg (by linarith), if_neg (by linarith)]
  linarith

/-- A box that crosses the antimeridian to the east. -/
theorem crossing {φ l : ℝ} {b : AABB ℝ} (h : |φ| ≤ 75) (h2 : l ≤ 180) (hb : Local b)
    (hc : 180 < l + lonShift φ b.x1 b.y1) :
    174 < l ∧ (llaabbox b ![φ, l]).y0 = l + lonShift φ b.x1 b.y1 - 360 ∧
    (llaabbox b ![φ, l]).y1 = l + lonShift φ b.x0 b.y0 := by
  have r0 := lonShift_range h hb.x0 hb.y0
  have r1 := lonShift_range h hb.x1 hb.y1
  rw [abs_lt] at r0 r1
  have n0 := lonShift_neg h hb.x0 hb.west
  have hl : 174 < l := by linarith [r1.2]
  have e0 : ne2ll ![b.x0, b.y0] ![φ, l] 1 = l + lonShift φ b.x0 b.y0 := by
    rw [C81_longitude h (by linarith) h2 hb.x0 hb.y0, if_neg (by linarith [r0.1]),
      if_neg (by linarith)]
  have e1 : ne2ll ![b.x1, b.y1] ![φ, l] 1 = l + lonShift φ b.x1 b.y1 - 360 := by
    rw [C81_longitude h (by linarith) h2 hb.x1 hb.y1, if_neg (by linarith), if_pos hc]
  have hy := llaabbox_y b ![φ, l]
  rw [e0, e1, min_eq_right (by linarith [r0.1, r1.2]), max_eq_left (by linarith [r0.1, r1.2])] at hy
  exact ⟨hl, hy.1, hy.2⟩

/-- C81, refuted at the antimeridian: the index box of a local box that crosses it excludes the
place it belongs to, and takes in all the other longitudes instead. -/
theorem C81_antimeridian_refuted {φ l : ℝ} {b : AABB ℝ} (h : |φ| ≤ 75) (h2 : l ≤ 180)
    (hb : Local b) (hc : 180 < l + lonShift φ b.x1 b.y1) :
    (∀ p : ℝ, (llaabbox b ![φ, l]).within (p, l) = false) ∧
    (∀ p q : ℝ, min (ne2ll ![b.x0, b.y0] ![φ, l] 0) (ne2ll ![b.x1, b.y1] ![φ, l] 0) ≤ p →
      p ≤ max (ne2ll ![b.x0, b.y0] ![φ, l] 0) (ne2ll ![b.x1, b.y1] ![φ, l] 0) →
      -174 ≤ q → q ≤ 168 → (llaabbox b ![φ, l]).within (p, q) = true) := by
  obtain ⟨hl, e0, e1⟩ := crossing h h2 hb hc
  have r0 := lonShift_range h hb.x0 hb.y0
  have r1 := lonShift_range h hb.x1 hb.y1
  rw [abs_lt] at r0 r1
  have n0 := lonShift_neg h hb.x0 hb.west
  constructor
  · intro p
    refine not_within (Or.inr ?_)
    rw [e1]; show _ < l; linarith
  · intro p q hp1 hp2 hq1 hq2
    unfold AABB.within
    have a1 : ¬ p < (llaabbox b ![φ, l]).x0 := not_lt.2 hp1
    have a2 : ¬ (llaabbox b ![φ, l]).x1 < p := not_lt.2 hp2
    have a3 : ¬ q < (llaabbox b ![φ, l]).y0 := by rw [e0]; linarith [r1.2]
    have a4 : ¬ (llaabbox b ![φ, l]).y1 < q := by rw [e1]; linarith [r0.1]
    simp [a1, a2, a3, a4]

/-- C81, refuted at the antimeridian: a target and a more precise report at the same place, the
target's box crossing and the report's not, do not intersect in the index. -/
theorem C81_missed_refuted {φ l r r' : ℝ} (h : |φ| ≤ 75) (hr' : 0 < r') (hr : r' < r)
    (hr5 : r ≤ 100000) (hl : 180 - lonShift φ r r < l) (hl' : l ≤ 180 - lonShift φ r' r') :
    (llaabbox ⟨-r, -r, r, r⟩ ![φ, l]).intersects (llaabbox ⟨-r', -r', r', r'⟩ ![φ, l]) = false := by
  have ab : ∀ {t : ℝ}, 0 < t → t ≤ 100000 → |t| ≤ 100000 ∧ |-t| ≤ 100000 := by
    intro t h0 ht
    rw [abs_neg, abs_of_pos h0]; exact ⟨ht, ht⟩
  have a := ab (hr'.trans hr) hr5
  have a' := ab hr' (hr.le.trans hr5)
  have hb : Local ⟨-r, -r, r, r⟩ := ⟨a.2, a.1, a.2, a.1, by simp only; linarith, by simp only; linarith,
    by simp only; linarith⟩
  have hb' : Local ⟨-r', -r', r', r'⟩ := ⟨a'.2, a'.1, a'.2, a'.1, by simp only; linarith,
    by simp only; linarith, by simp only; linarith⟩
  have hp := lonShift_pos h a'.1 hr'
  have h2 : l ≤ 180 := by linarith
  obtain ⟨hl0, e0, e1⟩ := crossing h h2 hb (by show 180 < l + lonShift φ r r; linarith)
  have rr := lonShift_range h a'.2 a'.2
  rw [abs_lt] at rr
  have hr2 := C81_longitude_range h (by linarith) h2 hb'
    (by show -180 < l + lonShift φ (-r') (-r'); linarith [rr.1])
    (by show l + lonShift φ r' r' ≤ 180; linarith)
  have hlt : lonShift φ (-r) (-r) < lonShift φ (-r') (-r') := by
    apply lonShift_lt
    have hA := axisDist_ge h a.2
    have hB := axisDist_ge h a'.2
    rw [div_lt_div_iff₀ (by linarith) (by linarith)]
    have hd : -r * axisDist φ (-r') = -r' * axisDist φ (-r) - (r - r') * (nrad φ * cosd φ) := by
      unfold axisDist; ring
    have : 0 < (r - r') * (nrad φ * cosd φ) :=
      mul_pos (by linarith) (mul_pos (nrad_pos φ) (by linarith [cosd_ge h]))
    rw [hd]; linarith
  have hy : (llaabbox ⟨-r, -r, r, r⟩ ![φ, l]).y1 < (llaabbox ⟨-r', -r', r', r'⟩ ![φ, l]).y0 := by
    rw [e1, hr2.1]
    show l + lonShift φ (-r) (-r) < l + lonShift φ (-r') (-r')
    linarith
  unfold AABB.intersects
  simp [hy]

/-- There are such longitudes, next to the antimeridian. -/
theorem missed_exists {φ r r' : ℝ} (h : |φ| ≤ 75) (hr' : 0 < r') (hr : r' < r)
    (hr5 : r ≤ 100000) : ∃ l, 174 < l ∧ l < 180 ∧ 180 - lonShift φ r r < l ∧
      l ≤ 180 - lonShift φ r' r' := by
  have ha : |r| ≤ 100000 := by rw [abs_of_pos (hr'.trans hr)]; exact hr5
  have ha' : |r'| ≤ 100000 := by rw [abs_of_pos hr']; linarith
  have rr := lonShift_range h ha' ha'
  rw [abs_lt] at rr
  refine ⟨180 - lonShift φ r' r', by linarith [rr.2], by linarith [lonShift_pos h ha' hr'], ?_,
    le_rfl⟩
  have : lonShift φ r' r' < lonShift φ r r := by
    apply lonShift_lt
    have hA := axisDist_ge h ha
    have hB := axisDist_ge h ha'
    rw [div_lt_div_iff₀ (by linarith) (by linarith)]
    have hd : r' * axisDist φ r = r * axisDist φ r' - (r - r') * (nrad φ * cosd φ) := by
      unfold axisDist; ring
    have : 0 < (r - r') * (nrad φ * cosd φ) :=
      mul_pos (by linarith) (mul_pos (nrad_pos φ) (by linarith [cosd_ge h]))
    rw [hd]; linarith
  linarith

/-! Concrete cases. -/

/-- Near Stockholm the longitudes of a box of 30 m lie to both sides of its middle. -/
example : (llaabbox ⟨-30, -30, 30, 30⟩ ![59, 18]).y0 < 18 ∧
    18 < (llaabbox ⟨-30, -30, 30, 30⟩ ![59, 18]).y1 ∧
    ne2ll ![30, 30] ![59, 18] 1 = 18 + lonShift 59 30 30 := by
  have hb : Local ⟨-30, -30, 30, 30⟩ := by
    constructor <;> norm_num [abs_le]
  have h59 : |(59 : ℝ)| ≤ 75 := by norm_num [abs_le]
  have r0 := lonShift_range h59 hb.x0 hb.y0
  have r1 := lonShift_range h59 hb.x1 hb.y1
  rw [abs_lt] at r0 r1
  have h := C81_longitude_range h59 (l := 18) (by norm_num) (by norm_num) hb (by linarith [r0.1])
    (by linarith [r1.2])
  refine ⟨h.2.2.1, h.2.2.2, ?_⟩
  rw [C81_longitude h59 (by norm_num) (by norm_num) hb.x1 hb.y1, if_neg, if_neg]
  · linarith [r1.2]
  · linarith [r1.1]

/-- A target at 59 degrees north, with a box of 30 m: the middle of its western edge is outside. -/
example : (llaabbox ⟨-30, -30, 30, 30⟩ ![59, 18]).within
    (ne2ll ![0, -30] ![59, 18] 0, ne2ll ![0, -30] ![59, 18] 1) = false := by
  have hb : Local ⟨-30, -30, 30, 30⟩ := by
    constructor <;> norm_num [abs_le]
  have h59 : |(59 : ℝ)| ≤ 75 := by norm_num [abs_le]
  have r0 := lonShift_range h59 hb.x1 hb.y0
  have r1 := lonShift_range h59 hb.x1 hb.y1
  rw [abs_lt] at r0 r1
  exact C81_corner_north_refuted (by norm_num) (by norm_num) (by norm_num) (by norm_num) hb
    (by linarith [r0.1]) (by linarith [r1.2]) (by norm_num) (by norm_num)

/-- The same at 34 degrees south. -/
example : (llaabbox ⟨-30, -30, 30, 30⟩ ![-34, 151]).within
    (ne2ll ![0, 30] ![-34, 151] 0, ne2ll ![0, 30] ![-34, 151] 1) = false := by
  have hb : Local ⟨-30, -30, 30, 30⟩ := by
    constructor <;> norm_num [abs_le]
  have h59 : |(-34 : ℝ)| ≤ 75 := by norm_num [abs_le]
  have r0 := lonShift_range h59 hb.x0 hb.y0
  have r1 := lonShift_range h59 hb.x0 hb.y1
  rw [abs_lt] at r0 r1
  exact C81_corner_south_refuted (by norm_num) (by norm_num) (by norm_num) (by norm_num) hb
    (by linarith [r0.1]) (by linarith [r1.2]) (by norm_num) (by norm_num)

/-- A target in Fiji, with a box of 30 m, and a report of 10 m at the same place. -/
example : ∃ l : ℝ, 174 < l ∧ l < 180 ∧ (∀ p : ℝ, (llaabbox ⟨-30, -30, 30, 30⟩ ![-17, l]).within
    (p, l) = false) ∧ (llaabbox ⟨-30, -30, 30, 30⟩ ![-17, l]).intersects
      (llaabbox ⟨-10, -10, 10, 10⟩ ![-17, l]) = false := by
  have h17 : |(-17 : ℝ)| ≤ 75 := by norm_num [abs_le]
  obtain ⟨l, a, b, c, d⟩ := missed_exists (r := 30) (r' := 10) h17 (by norm_num) (by norm_num)
    (by norm_num)
  have hb : Local ⟨-30, -30, 30, 30⟩ := by
    constructor <;> norm_num [abs_le]
  refine ⟨l, a, b, (C81_antimeridian_refuted h17 b.le hb ?_).1,
    C81_missed_refuted h17 (by norm_num) (by norm_num) (by norm_num) c d⟩
  show 180 < l + lonShift (-17) 30 30
  linarith

end Verif.CF
