import Verif.Particles.Update
import Verif.CF.Boxes
import Mathlib.LinearAlgebra.Matrix.PosDef

/-!
# C129, particles: reports and particles are moved into the same frame
-/

namespace Verif.Particles

open Verif.Tracker Matrix
open Verif.System (Rpt LL head setHead)

/-- **C129, particles** Whatever the origin of the cluster: of two particles that the sensor detects with the same
probability, the one at the position of the report has its weight multiplied by the larger factor, and by a strictly
larger one if the other is elsewhere in the local frame and the sensor sees them. -/
theorem C129_particles (s : PSens) (o : LL) (z : Rpt) (p : Pdf) (i j : Nat) (g h : Part)
    (hg : p.pf.c[i]? = some g) (hh : p.pf.c[j]? = some h) (he : g.x 0 = z.1.x 0 ∧ g.x 1 = z.1.x 1) :
    ∃ g' h', (toLocal o p).pf.c[i]? = some g' ∧ (toLocal o p).pf.c[j]? = some h' ∧
      (s.pDAt o g'.x = s.pDAt o h'.x → 0 ≤ s.pDAt o g'.x →
        s.lik o (System.rLocal o z) h'.x ≤ s.lik o (System.rLocal o z) g'.x) ∧
      (s.pDAt o g'.x = s.pDAt o h'.x → 0 < s.pDAt o g'.x →
        CF.ll2ne ![h.x 0, h.x 1] o ≠ CF.ll2ne ![z.1.x 0, z.1.x 1] o →
        s.lik o (System.rLocal o z) h'.x < s.lik o (System.rLocal o z) g'.x) := by
  have hhg : head g.x = z.1.x := by
    ext l
    fin_cases l
    · exact he.1
    · exact he.2
  have hz : (![z.1.x 0, z.1.x 1] : LL) = z.1.x := by
    ext l
    fin_cases l <;> rfl
  have hk : 0 < z.1.kappa := z.2.2
  have hP : (z.1.P⁻¹).PosDef := z.2.1.inv
  have hs : ∀ (a : LL) (x : Fin 4 → ℝ), head (setHead a x) = a := by
    intro a x
    ext l
    fin_cases l <;> rfl
  have hr : (System.rLocal o z).1.x = CF.ll2ne z.1.x o := rfl
  have hrP : (System.rLocal o z).1.P = z.1.P := rfl
  have hrk : (System.rLocal o z).1.kappa = z.1.kappa := rfl
  have hS : 0 < Real.sqrt ((z.1.P⁻¹).det / (2 * Real.pi) ^ 2) := by
    have := hP.det_pos
    positivity
  have h0 : Kalman.likelihood (CF.ll2ne z.1.x o - CF.ll2ne (head g.x) o) z.1.P⁻¹ =
      Real.sqrt ((z.1.P⁻¹).det / (2 * Real.pi) ^ 2) := by
    simp [hhg, Kalman.likelihood]
  have hle : ∀ d : Fin 2 → ℝ, 0 ≤ d ⬝ᵥ z.1.P⁻¹ *ᵥ d := fun d => by
    simpa using hP.posSemidef.dotProduct_mulVec_nonneg d
  have hlt : ∀ d : Fin 2 → ℝ, d ≠ 0 → 0 < d ⬝ᵥ z.1.P⁻¹ *ᵥ d := fun d hd => by
    simpa using hP.dotProduct_mulVec_pos hd
  refine ⟨⟨setHead (CF.ll2ne (head g.x) o) g.x, g.w⟩, ⟨setHead (CF.ll2ne (head h.x) o) h.x, h.w⟩,
    by simp [toLocal, hg], by simp [toLocal, hh], ?_, ?_⟩
  · intro e hp
    unfold PSens.lik
    rw [← e, hs, hs, hr, hrP, hrk, h0]
    refine div_le_div_of_nonneg_right (mul_le_mul_of_nonneg_left ?_ hp) hk.le
    unfold Kalman.likelihood
    refine mul_le_of_le_one_left hS.le (Real.exp_le_one_iff.2 ?_)
    have := hle (CF.ll2ne z.1.x o - CF.ll2ne (head h.x) o)
    linarith
  · intro e hp hne
    unfold PSens.lik
    rw [← e, hs, hs, hr, hrP, hrk, h0]
    refine div_lt_div_of_pos_right (mul_lt_mul_of_pos_left ?_ hp) hk
    unfold Kalman.likelihood
    refine mul_lt_of_lt_one_left hS ((Real.exp_lt_exp.2 ?_).trans_eq Real.exp_zero)
    have := hlt (CF.ll2ne z.1.x o - CF.ll2ne (head h.x) o) (by
      intro h3
      apply hne
      rw [hz]
      exact (sub_eq_zero.1 h3).symm)
    linarith

/-- A point of the second axis in a box around it. -/
theorem strip {a b d y : ℝ} (ha : 0 < a) (h1 : d < y) (h2 : y < b) :
    (⟨(a, b), (-a, b), (-a, d), (a, d)⟩ : BBox.Box ℝ).within (0, y) = true := by
  have hy : ¬ y < d := by linarith
  have t1 : BBox.toggles ((a, b) : BBox.Pt ℝ) (a, d) (0, y) = true := by
    simp [BBox.toggles, h2, hy, ha]
  have t2 : BBox.toggles ((-a, b) : BBox.Pt ℝ) (a, b) (0, y) = false := by
    simp [BBox.toggles]
  have t3 : BBox.toggles ((-a, d) : BBox.Pt ℝ) (-a, b) (0, y) = false := by
    simp [BBox.toggles, h2, hy, ha.le]
  have t4 : BBox.toggles ((a, d) : BBox.Pt ℝ) (-a, d) (0, y) = false := by
    simp [BBox.toggles]
  have hin : (BBox.Box.aabbox (⟨(a, b), (-a, b), (-a, d), (a, d)⟩ : BBox.Box ℝ)).within (0, y) = true := by
    rw [BBox.AABB.within_iff]
    simp only [BBox.Box.aabbox, BBox.AABB.mk4]
    refine ⟨?_, ?_, ?_, ?_⟩
    · exact min_le_of_left_le (min_le_of_left_le (min_le_of_left_le (min_le_of_right_le (by linarith))))
    · exact le_max_of_le_right (le_max_of_le_left (le_max_of_le_left (le_max_of_le_left ha.le)))
    · exact min_le_of_left_le (min_le_of_right_le (by linarith))
    · exact le_max_of_le_right (le_max_of_le_left (le_max_of_le_left (le_max_of_le_left h2.le)))
  unfold BBox.Box.within
  simp [hin, t1, t2, t3, t4]

/-- A sensor that sees a strip along the equator, with a detection probability of 1/2. -/
noncomputable def exStrip : PSens :=
  { exSens with fov := ⟨(5, 100), (-5, 100), (-5, -80), (5, -80)⟩, pD := 1 / 2 }

/-- It sees the points of the equator less than 30 degrees from the origin of the frame. -/
theorem exStrip_sees {lon : ℝ} (h1 : -20 < lon) (h2 : lon < 40) :
    exStrip.pDAt ![0, 10] ![CF.ll2ne ![0, lon] ![0, 10] 0, CF.ll2ne ![0, lon] ![0, 10] 1, 0, 0] = 1 / 2 := by
  have hpi := Real.pi_pos
  have hneg : CF.sind (-5) = -CF.sind 5 := by
    unfold CF.sind
    rw [← Real.sin_neg]
    congr 1
    ring
  have hcos : CF.cosd (-5) = CF.cosd 5 := by
    unfold CF.cosd
    rw [← Real.cos_neg]
    congr 1
    ring
  have hnr : CF.nrad (-5) = CF.nrad 5 := by
    unfold CF.nrad
    rw [hneg]
    ring_nf
  have hs0 : CF.sind 0 = 0 := by unfold CF.sind; simp
  have hc0 : CF.cosd 0 = 1 := by unfold CF.cosd; simp
  have hs90 : CF.sind (100 - 10) = 1 := by
    unfold CF.sind
    rw [show ((100 : ℝ) - 10) * Real.pi / 180 = Real.pi / 2 by ring, Real.sin_pi_div_two]
  have hsm : CF.sind (-80 - 10) = -1 := by
    unfold CF.sind
    rw [show ((-80 : ℝ) - 10) * Real.pi / 180 = -(Real.pi / 2) by ring, Real.sin_neg, Real.sin_pi_div_two]
  set a := CF.ll2ne ![(5 : ℝ), 100] ![0, 10] 0 with ha
  have ha0 : 0 < a := by
    rw [ha, north]
    exact mul_pos (mul_pos (nrad_pos 5) (by unfold CF.e2; norm_num)) (sind_pos (by norm_num) (by norm_num))
  have e1 : CF.ll2ne ![(-5 : ℝ), 100] ![0, 10] 0 = -a := by rw [ha, north, north, hneg, hnr]; ring
  have e2 : CF.ll2ne ![(-5 : ℝ), -80] ![0, 10] 0 = -a := by rw [ha, north, north, hneg, hnr]; ring
  have e3 : CF.ll2ne ![(5 : ℝ), -80] ![0, 10] 0 = a := by rw [ha, north, north]
  have f0 : CF.ll2ne ![(5 : ℝ), 100] ![0, 10] 1 = CF.nrad 5 * CF.cosd 5 := by rw [east, hs90, mul_one]
  have f1 : CF.ll2ne ![(-5 : ℝ), 100] ![0, 10] 1 = CF.nrad 5 * CF.cosd 5 := by
    rw [east, hs90, mul_one, hcos, hnr]
  have f2 : CF.ll2ne ![(-5 : ℝ), -80] ![0, 10] 1 = -(CF.nrad 5 * CF.cosd 5) := by
    rw [east, hsm, hcos, hnr]; ring
  have f3 : CF.ll2ne ![(5 : ℝ), -80] ![0, 10] 1 = -(CF.nrad 5 * CF.cosd 5) := by rw [east, hsm]; ring
  have g0 : CF.ll2ne ![0, lon] ![0, 10] 0 = 0 := by rw [north, hs0, mul_zero]
  have g1 : CF.ll2ne ![0, lon] ![0, 10] 1 = CF.ea * CF.sind (lon - 10) := by
    rw [east, hc0, mul_one]
    congr 1
    unfold CF.nrad
    rw [hs0]
    simp
  have hea : 0 < CF.ea := by unfold CF.ea; norm_num
  have hN : CF.ea ≤ CF.nrad 5 := (CF.nrad_range 5).1
  have hC : 1 / 2 < CF.cosd 5 := by
    unfold CF.cosd
    rw [← Real.cos_pi_div_three]
    apply Real.cos_lt_cos_of_nonneg_of_le_pi <;> linarith
  have hS1 : CF.sind (lon - 10) < 1 / 2 := by
    unfold CF.sind
    rw [← Real.sin_pi_div_six]
    apply Real.sin_lt_sin_of_lt_of_le_pi_div_two <;> nlinarith
  have hS2 : -(1 / 2) < CF.sind (lon - 10) := by
    unfold CF.sind
    rw [← Real.sin_pi_div_six, ← Real.sin_neg]
    apply Real.sin_lt_sin_of_lt_of_le_pi_div_two <;> nlinarith
  have hb : CF.ea * (1 / 2) < CF.nrad 5 * CF.cosd 5 :=
    mul_lt_mul' hN hC (by norm_num) (nrad_pos 5)
  have hb1 := mul_lt_mul_of_pos_left hS1 hea
  have hb2 := mul_lt_mul_of_pos_left hS2 hea
  have hw : (nebbox ![0, 10] exStrip.fov).within (CF.ll2ne ![0, lon] ![0, 10] 0,
      CF.ll2ne ![0, lon] ![0, 10] 1) = true := by
    have hbx : nebbox ![0, 10] exStrip.fov = ⟨(a, CF.nrad 5 * CF.cosd 5), (-a, CF.nrad 5 * CF.cosd 5),
        (-a, -(CF.nrad 5 * CF.cosd 5)), (a, -(CF.nrad 5 * CF.cosd 5))⟩ := by
      simp only [nebbox, exStrip, vec, pt, e1, e2, e3, f0, f1, f2, f3, ← ha]
    rw [hbx, g0, g1]
    exact strip ha0 (by linarith) (by linarith)
  unfold PSens.pDAt
  rw [show (![CF.ll2ne ![0, lon] ![0, 10] 0, CF.ll2ne ![0, lon] ![0, 10] 1, 0, 0] : X) 0 =
    CF.ll2ne ![0, lon] ![0, 10] 0 from rfl, show (![CF.ll2ne ![0, lon] ![0, 10] 0,
    CF.ll2ne ![0, lon] ![0, 10] 1, 0, 0] : X) 1 = CF.ll2ne ![0, lon] ![0, 10] 1 from rfl, hw]
  simp [exStrip]

/-- A report from 0 N 20 E, in a frame with its origin at 0 N 10 E, and two particles that are both in view: the one
at 20 E gains on the one at 21 E. -/
example : ∃ g' h' : Part, (toLocal ![0, 10] ⟨⟨[⟨![0, 21, 0, 0], 1 / 2⟩, ⟨![0, 20, 0, 0], 1 / 2⟩], 1, false⟩, 0, wide,
      plane⟩).pf.c = [h', g'] ∧
    exStrip.lik ![0, 10] (System.rLocal ![0, 10] (System.exRpt 0 20)) h'.x <
      exStrip.lik ![0, 10] (System.rLocal ![0, 10] (System.exRpt 0 20)) g'.x := by
  obtain ⟨g', h', e1, e2, -, h⟩ := C129_particles exStrip ![0, 10] (System.exRpt 0 20)
    ⟨⟨[⟨![0, 21, 0, 0], 1 / 2⟩, ⟨![0, 20, 0, 0], 1 / 2⟩], 1, false⟩, 0, wide, plane⟩ 1 0 _ _ rfl rfl ⟨rfl, rfl⟩
  have hx : ∀ lon : ℝ, setHead (CF.ll2ne (head ![0, lon, 0, 0]) ![0, 10]) ![0, lon, 0, 0] =
      ![CF.ll2ne ![0, lon] ![0, 10] 0, CF.ll2ne ![0, lon] ![0, 10] 1, 0, 0] := by
    intro lon
    have : head ![0, lon, 0, 0] = ![0, lon] := rfl
    rw [this]
    rfl
  have hg : g' = ⟨setHead (CF.ll2ne (head ![0, 20, 0, 0]) ![0, 10]) ![0, 20, 0, 0], 1 / 2⟩ :=
    (Option.some.inj e1).symm
  have hh : h' = ⟨setHead (CF.ll2ne (head ![0, 21, 0, 0]) ![0, 10]) ![0, 21, 0, 0], 1 / 2⟩ :=
    (Option.some.inj e2).symm
  have pg : exStrip.pDAt ![0, 10] g'.x = 1 / 2 := by
    rw [hg]
    show exStrip.pDAt _ (setHead _ _) = _
    rw [hx]
    exact exStrip_sees (by norm_num) (by norm_num)
  have ph : exStrip.pDAt ![0, 10] h'.x = 1 / 2 := by
    rw [hh]
    show exStrip.pDAt _ (setHead _ _) = _
    rw [hx]
    exact exStrip_sees (by norm_num) (by norm_num)
  refine ⟨g', h', by rw [hg, hh]; rfl, h (pg.trans ph.symm) (by rw [pg]; norm_num) ?_⟩
  intro hcon
  have h1 := congrFun hcon 1
  change CF.ll2ne ![0, 21] ![0, 10] 1 = CF.ll2ne ![0, 20] ![0, 10] 1 at h1
  rw [east, east] at h1
  have h2 : CF.sind (20 - 10) < CF.sind (21 - 10) := by
    have hpi := Real.pi_pos
    unfold CF.sind
    apply Real.sin_lt_sin_of_lt_of_le_pi_div_two <;> linarith
  exact absurd (mul_left_cancel₀ (mul_pos (nrad_pos 0) (cosd_pos (by norm_num) (by norm_num))).ne' h1) h2.ne'

end Verif.Particles
