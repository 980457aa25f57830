import Verif.System.Still
import Verif.CF.Corners
import Verif.CF.Latitude

/-!
# C127: a target that moves over a pole turns back
-/

namespace Verif.System

open Verif.Tracker Matrix
open Verif.Kalman (cvF cvQ)

theorem cosd_half : CF.cosd 180 = -1 ∧ CF.sind 180 = 0 := by
  have e : (180 : ℝ) * Real.pi / 180 = Real.pi := by ring
  unfold CF.cosd CF.sind
  rw [e, Real.cos_pi, Real.sin_pi]
  exact ⟨rfl, rfl⟩

theorem lon_half (q : Fin 3 → ℝ) (h0 : q 0 < 0) (h1 : q 1 = 0) : CF.ecef2ll q 1 = 180 := by
  have e : CF.ecef2ll q 1 = Complex.arg ⟨q 0, q 1⟩ * 180 / Real.pi := rfl
  have h : (⟨q 0, q 1⟩ : ℂ) = ((q 0 : ℝ) : ℂ) := by
    rw [h1]
    rfl
  rw [e, h, Complex.arg_ofReal_of_neg h0]
  have := Real.pi_pos
  field_simp

theorem height_bound {N e s n c : ℝ} (hN : 6378137 ≤ N) (he : e ≤ 67 / 10 ^ 4) (hs : 1 / 2 ≤ s) (hn : 0 ≤ n)
    (hc : 0 ≤ c) : 3 * 10 ^ 6 ≤ N * (1 - e) * s + n * c := by
  have h1 : 6378137 * (9933 / 10000) ≤ N * (1 - e) :=
    mul_le_mul hN (by norm_num at he; linarith) (by norm_num) (by linarith)
  have h2 : 6378137 * (9933 / 10000) * (1 / 2) ≤ N * (1 - e) * s :=
    mul_le_mul h1 hs (by norm_num) (by norm_num at h1; linarith)
  have h3 := mul_nonneg hn hc
  norm_num at h2 ⊢
  linarith

theorem sin_bound {N e a s : ℝ} (hN0 : 0 < N) (hN : N ≤ 1004 / 1000 * 6378137) (he0 : 0 < e) (he : e ≤ 67 / 10 ^ 4)
    (ha0 : 0 ≤ a) (ha : a ≤ 10 ^ 6) (h : 3 * 10 ^ 6 ≤ (N * (1 - e) + a) * s) : 3 / 10 ≤ s := by
  have h2 : 0 < N * (1 - e) + a := by
    have : 0 < N * (1 - e) := mul_pos hN0 (by norm_num at he; linarith)
    linarith
  have h3 : N * (1 - e) + a ≤ 8 * 10 ^ 6 := by
    have : N * (1 - e) ≤ N := by nlinarith
    norm_num at hN ha ⊢
    linarith
  have h4 : 0 < s := by
    by_contra h0
    have := mul_nonpos_of_nonneg_of_nonpos h2.le (not_lt.1 h0)
    norm_num at h
    linarith
  have h5 : (N * (1 - e) + a) * s ≤ 8 * 10 ^ 6 * s := mul_le_mul_of_nonneg_right h3 h4.le
  norm_num at h h5 ⊢
  linarith

theorem quarter {f : ℝ} (h1 : -180 ≤ f) (h2 : f ≤ 180) (hc : 0 < CF.cosd f) : -90 ≤ f ∧ f ≤ 90 := by
  have hp := Real.pi_pos
  have key : ∀ x : ℝ, 90 < x → x ≤ 180 → CF.cosd x ≤ 0 := by
    intro x hx hx'
    refine Real.cos_nonpos_of_pi_div_two_le_of_le ?_ ?_
    · rw [div_le_div_iff₀ (by norm_num) (by norm_num)]
      nlinarith
    · rw [div_le_iff₀ (by norm_num)]
      nlinarith
  constructor
  · by_contra h
    have h3 := key (-f) (by linarith) (by linarith)
    have : CF.cosd (-f) = CF.cosd f := by
      unfold CF.cosd
      rw [neg_mul, neg_div, Real.cos_neg]
    linarith
  · by_contra h
    have := key f (by linarith) h2
    linarith

/-- The conversion of a point of the tangent plane beyond the north pole. -/
theorem over_pole {φ n : ℝ} (hs : 1 / 2 ≤ CF.sind φ) (hc : 0 ≤ CF.cosd φ) (hn0 : 0 ≤ n) (hn : n ≤ 10 ^ 6)
    (hX : CF.nrad φ * CF.cosd φ + 1 ≤ n * CF.sind φ) :
    CF.ne2ll ![n, 0] ![φ, 0] 1 = 180 ∧ 0 < CF.sind (CF.ne2ll ![n, 0] ![φ, 0] 0) := by
  obtain ⟨q, hq⟩ : ∃ q, q = CF.ll2ecef ![φ, 0] + (CF.nedrot φ 0)ᵀ *ᵥ ![n, 0, 0] := ⟨_, rfl⟩
  have z0 : CF.cosd 0 = 1 ∧ CF.sind 0 = 0 := by unfold CF.cosd CF.sind; simp
  have q0 : q 0 = CF.nrad φ * CF.cosd φ - n * CF.sind φ := by
    rw [hq]
    simp [CF.ll2ecef, CF.nedrot, Matrix.mulVec, dotProduct, Fin.sum_univ_three, z0.1, z0.2]
    ring
  have q1 : q 1 = 0 := by
    rw [hq]
    simp [CF.ll2ecef, CF.nedrot, Matrix.mulVec, dotProduct, Fin.sum_univ_three, z0.1, z0.2]
  have q2 : q 2 = CF.nrad φ * (1 - CF.e2) * CF.sind φ + n * CF.cosd φ := by
    rw [hq]
    simp [CF.ll2ecef, CF.nedrot, Matrix.mulVec, dotProduct, Fin.sum_univ_three, z0.1, z0.2]
    ring
  obtain ⟨lat, lon, alt, a1, a2, a3, a4, a5, _, a6⟩ := CF.plane_lat (φ := φ) (l := 0) (n := n) (e := 0) (10 ^ 6)
    (by norm_num) (by nlinarith)
  rw [← hq] at a5 a6
  obtain ⟨_, r1, r2⟩ := CF.nrad_lip lat lat
  obtain ⟨_, r3, _⟩ := CF.nrad_lip φ φ
  have he := CF.e2_bounds
  have hea : (CF.ea : ℝ) = 6378137 := by unfold CF.ea; norm_num
  rw [hea] at r1 r2 r3
  have b0 : (CF.nrad lat + alt) * CF.cosd lat * CF.cosd lon = q 0 := congrFun a5 0
  have b1 : (CF.nrad lat + alt) * CF.cosd lat * CF.sind lon = q 1 := congrFun a5 1
  have b2 : (CF.nrad lat * (1 - CF.e2) + alt) * CF.sind lat = q 2 := congrFun a5 2
  have hc0 : 0 ≤ CF.cosd lat := by
    unfold CF.cosd
    have := Real.pi_pos
    exact Real.cos_nonneg_of_mem_Icc ⟨by nlinarith, by nlinarith⟩
  have hcl : 1 / (8 * 10 ^ 6) ≤ CF.cosd lat := by
    have h1 : CF.cosd lon ≤ 1 ∧ -1 ≤ CF.cosd lon := ⟨Real.cos_le_one _, Real.neg_one_le_cos _⟩
    have h2 : 0 ≤ (CF.nrad lat + alt) * CF.cosd lat := mul_nonneg (by linarith) hc0
    have h3 : 1 ≤ (CF.nrad lat + alt) * CF.cosd lat := by
      have : (CF.nrad lat + alt) * CF.cosd lat * CF.cosd lon ≤ -1 := by rw [b0, q0]; linarith
      nlinarith
    have h4 : (CF.nrad lat + alt) * CF.cosd lat ≤ (8 * 10 ^ 6) * CF.cosd lat :=
      mul_le_mul_of_nonneg_right (by linarith) hc0
    rw [div_le_iff₀ (by norm_num)]
    linarith
  have hsl : 3 / 10 ≤ CF.sind lat := by
    refine sin_bound (CF.nrad_pos lat) r2 he.1 he.2 a3 a4 ?_
    rw [b2, q2]
    exact height_bound r3 he.2 hs hn0 hc
  obtain ⟨ps, pc⟩ := CF.lat_close a6
  have hL1 : CF.ecef2ll q 1 = 180 := lon_half q (by rw [q0]; linarith) q1
  obtain ⟨f, hf⟩ : ∃ f, f = CF.ecef2ll q 0 := ⟨_, rfl⟩
  rw [← hf] at a6 ps pc
  have hcf : 0 < CF.cosd f := by
    have := (abs_le.1 pc).1
    norm_num at this hcl
    linarith
  have hne : CF.ne2ecef ![n, 0] ![φ, 0] = CF.ll2ecef ![f, 180] := by
    have : CF.ne2ecef ![n, 0] ![φ, 0] = CF.ll2ecef (CF.ecef2ll q) := by rw [hq]; rfl
    rw [this, ← CF.ll_eta (CF.ecef2ll q), hL1, hf]
  have hll : CF.ne2ll ![n, 0] ![φ, 0] = CF.ecef2ll (CF.ll2ecef ![f, 180]) := by
    unfold CF.ne2ll
    rw [hne]
  rw [hll]
  constructor
  · refine lon_half _ ?_ ?_
    · show CF.nrad f * CF.cosd f * CF.cosd 180 < 0
      rw [cosd_half.1]
      have := mul_pos (CF.nrad_pos f) hcf
      linarith
    · show CF.nrad f * CF.cosd f * CF.sind 180 = 0
      rw [cosd_half.2, mul_zero]
  · have hf90 : -90 ≤ f ∧ f ≤ 90 := by
      obtain ⟨c1, c2⟩ := abs_le.1 a6
      norm_num at c1 c2
      exact quarter (by linarith) (by linarith) hcf
    obtain ⟨w1, _⟩ := CF.lat_close (CF.C64_latitude f 180 hf90.1 hf90.2)
    have e1 := (abs_le.1 w1).1
    have e2 := (abs_le.1 ps).1
    norm_num at e1 e2 hsl ⊢
    linarith

/-- **C127 refuted** A target on the meridian of Greenwich that moves north, over the pole and at least a metre beyond
it: after the prediction it is on the meridian of 180 degrees, where straight on is south, but its velocity still points
north.  In space, the velocity is turned round: its component along the axis through the equator at longitude 0 was
negative and is positive, so the target moves back to where it came from. -/
theorem C127_pole_refuted (k : Opts) {φ v pS q dT : ℝ} (hs : 1 / 2 ≤ CF.sind φ) (hc : 0 ≤ CF.cosd φ) (hv : 0 < v)
    (hn : v * dT ≤ 10 ^ 6) (hX : CF.nrad φ * CF.cosd φ + 1 ≤ v * dT * CF.sind φ) {t : Tgt Pdf}
    {P : Matrix (Fin 4) (Fin 4) ℝ} (ht : t.pdf.mix.c = [⟨(![φ, 0, v, 0], P), 1⟩]) :
    ((CF.nedrot φ 0)ᵀ *ᵥ ![v, 0, 0]) 0 < 0 ∧
    ∃ L P', (predictTgt (env k) (cv pS q dT) t).pdf.mix.c = [⟨(![L, 180, v, 0], P'), 1⟩] ∧
      0 < ((CF.nedrot L 180)ᵀ *ᵥ ![v, 0, 0]) 0 := by
  have z0 : CF.cosd 0 = 1 ∧ CF.sind 0 = 0 := by unfold CF.cosd CF.sind; simp
  have hn0 : 0 ≤ v * dT := by
    have h1 := mul_nonneg (CF.nrad_pos φ).le hc
    by_contra h
    rw [not_le] at h
    nlinarith
  obtain ⟨h1, h2⟩ := over_pole hs hc hn0 hn hX
  have hpos : pos t.pdf = ![φ, 0] := by
    unfold pos
    rw [Kalman.mean_eq, ht]
    ext i
    fin_cases i <;> simp [toG, head]
  have hz : CF.ll2ne ![φ, 0] ![φ, 0] = 0 := (CF.C49_ne ![φ, 0] ![φ, 0] ![φ, 0]).2.1
  have e := predict_full (k := k) (m := cv pS q dT) (F := cvF dT) (Q := cvQ q dT) rfl (t := t)
    (by rw [ht]; simp)
  rw [ht, hpos] at e
  have hh : head ![φ, 0, v, 0] = ![φ, 0] := rfl
  have hl : setHead 0 ![φ, 0, v, 0] = ![0, 0, v, 0] := by
    ext i
    fin_cases i <;> rfl
  have hF : cvF dT *ᵥ ![0, 0, v, 0] = ![v * dT, 0, v, 0] := by
    ext i
    fin_cases i <;> simp [cvF, Matrix.mulVec, dotProduct, Fin.sum_univ_four, mul_comm]
  have hh2 : head ![v * dT, 0, v, 0] = ![v * dT, 0] := rfl
  simp only [List.map_cons, List.map_nil, hh, hz, hl, hF, hh2] at e
  refine ⟨?_, CF.ne2ll ![v * dT, 0] ![φ, 0] 0, cvF dT * P * (cvF dT)ᵀ + cvQ q dT, e.trans ?_, ?_⟩
  · simp [CF.nedrot, Matrix.mulVec, dotProduct, Fin.sum_univ_three, z0.1]
    nlinarith
  · have : setHead (CF.ne2ll ![v * dT, 0] ![φ, 0]) ![v * dT, 0, v, 0] =
        ![CF.ne2ll ![v * dT, 0] ![φ, 0] 0, 180, v, 0] := by
      ext i
      fin_cases i
      · rfl
      · exact h1
      · rfl
      · rfl
    rw [this]
  · simp [CF.nedrot, Matrix.mulVec, dotProduct, Fin.sum_univ_three, cosd_half.1]
    exact mul_pos h2 hv

/-! ## Example -/

/-- An aircraft at 200 m/s, 11 kilometres from the pole, 100 seconds later. -/
example (k : Opts) {t : Tgt Pdf} (ht : t.pdf.mix.c = [⟨(![90 - 1 / 10, 0, 200, 0], 1), 1⟩]) :
    ∃ L P', (predictTgt (env k) (cv 1 1 100) t).pdf.mix.c = [⟨(![L, 180, 200, 0], P'), 1⟩] := by
  have hp0 := Real.pi_pos
  have hp := Real.pi_lt_d2
  have e : (90 - 1 / 10 : ℝ) * Real.pi / 180 = Real.pi / 2 - Real.pi / 1800 := by ring
  have hc : CF.cosd (90 - 1 / 10) = Real.sin (Real.pi / 1800) := by
    unfold CF.cosd
    rw [e, Real.cos_pi_div_two_sub]
  have hs : CF.sind (90 - 1 / 10) = Real.cos (Real.pi / 1800) := by
    unfold CF.sind
    rw [e, Real.sin_pi_div_two_sub]
  have x0 : 0 < Real.pi / 1800 := by positivity
  have x1 : Real.pi / 1800 ≤ 175 / 10 ^ 5 := by
    rw [div_le_iff₀ (by norm_num)]
    norm_num at hp ⊢
    linarith
  have c0 : 0 ≤ Real.sin (Real.pi / 1800) := Real.sin_nonneg_of_nonneg_of_le_pi x0.le (by linarith)
  have c1 : Real.sin (Real.pi / 1800) ≤ 175 / 10 ^ 5 := (Real.sin_lt x0).le.trans x1
  have s1 : 9 / 10 ≤ Real.cos (Real.pi / 1800) := by
    have h := Real.one_sub_sq_div_two_le_cos (x := Real.pi / 1800)
    have : (Real.pi / 1800) ^ 2 ≤ (175 / 10 ^ 5) ^ 2 := pow_le_pow_left₀ x0.le x1 2
    norm_num at this h ⊢
    linarith
  obtain ⟨_, L, P', h, _⟩ := C127_pole_refuted k (φ := 90 - 1 / 10) (v := 200) (pS := 1) (q := 1) (dT := 100)
    (by rw [hs]; linarith) (by rw [hc]; exact c0) (by norm_num) (by norm_num) (by
      rw [hs, hc]
      have r := (CF.nrad_lip (90 - 1 / 10) (90 - 1 / 10)).2.2
      have hea : (CF.ea : ℝ) = 6378137 := by unfold CF.ea; norm_num
      rw [hea] at r
      have := mul_le_mul r c1 c0 (by norm_num)
      norm_num at this ⊢
      linarith) ht
  exact ⟨L, P', h⟩

end Verif.System
