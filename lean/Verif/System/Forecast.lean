import Verif.System.Origin
import Verif.CF.Latitude

/-!
# C125: the range of latitudes and longitudes, and the forecast of the constant-velocity model
-/

namespace Verif.System

open Verif.Tracker Matrix

/-- `CV::predict`, `models.hpp:47-55`, for a density with mean `x`. -/
def forecast (dT : ℝ) (x : Fin 4 → ℝ) : Fin 4 → ℝ :=
  !![1, 0, dT, 0; 0, 1, 0, dT; 0, 0, 1, 0; 0, 0, 0, 1] *ᵥ x

/-! ## Latitudes and longitudes -/

theorem ne2ll_lon (p o : LL) : -180 < CF.ne2ll p o 1 ∧ CF.ne2ll p o 1 ≤ 180 := by
  have e : CF.ne2ll p o 1 = Complex.arg ⟨CF.ne2ecef p o 0, CF.ne2ecef p o 1⟩ * 180 / Real.pi := rfl
  have h1 := Complex.neg_pi_lt_arg (⟨CF.ne2ecef p o 0, CF.ne2ecef p o 1⟩ : ℂ)
  have h2 := Complex.arg_le_pi (⟨CF.ne2ecef p o 0, CF.ne2ecef p o 1⟩ : ℂ)
  have hp := Real.pi_pos
  rw [e]
  constructor
  · rw [lt_div_iff₀ hp]; linarith
  · rw [div_le_iff₀ hp]; linarith

/-- A point of the ellipsoid given by any two angles has a latitude from -90 to 90. -/
theorem wrap (lat lon : ℝ) : ∃ lat' lon' : ℝ, -90 ≤ lat' ∧ lat' ≤ 90 ∧
    CF.ll2ecef ![lat, lon] = CF.ll2ecef ![lat', lon'] := by
  have hp := Real.pi_pos
  obtain ⟨f, hf⟩ : ∃ f, f = Real.arcsin (CF.sind lat) * 180 / Real.pi := ⟨_, rfl⟩
  have hfr : f * Real.pi / 180 = Real.arcsin (CF.sind lat) := by rw [hf]; field_simp
  have h1 := Real.neg_pi_div_two_le_arcsin (CF.sind lat)
  have h2 := Real.arcsin_le_pi_div_two (CF.sind lat)
  have hlo : -90 ≤ f := by rw [hf, le_div_iff₀ hp]; linarith
  have hhi : f ≤ 90 := by rw [hf, div_le_iff₀ hp]; linarith
  have hs : CF.sind f = CF.sind lat := by
    show Real.sin (f * Real.pi / 180) = _
    rw [hfr]
    exact Real.sin_arcsin (Real.neg_one_le_sin _) (Real.sin_le_one _)
  have hc : CF.cosd f = |CF.cosd lat| := by
    show Real.cos (f * Real.pi / 180) = _
    rw [hfr, Real.cos_arcsin, ← Real.sqrt_sq_eq_abs]
    congr 1
    have : Real.sin (lat * Real.pi / 180) ^ 2 + Real.cos (lat * Real.pi / 180) ^ 2 = 1 := Real.sin_sq_add_cos_sq _
    unfold CF.sind CF.cosd
    linarith
  have hn : CF.nrad f = CF.nrad lat := by unfold CF.nrad; rw [hs]
  rcases le_total 0 (CF.cosd lat) with h | h
  · refine ⟨f, lon, hlo, hhi, ?_⟩
    unfold CF.ll2ecef
    simp only [Matrix.cons_val_zero, Matrix.cons_val_one, hn, hs, hc, abs_of_nonneg h]
  · refine ⟨f, lon + 180, hlo, hhi, ?_⟩
    have e : (lon + 180) * Real.pi / 180 = lon * Real.pi / 180 + Real.pi := by ring
    have c1 : CF.cosd (lon + 180) = -CF.cosd lon := by unfold CF.cosd; rw [e, Real.cos_add_pi]
    have s1 : CF.sind (lon + 180) = -CF.sind lon := by unfold CF.sind; rw [e, Real.sin_add_pi]
    unfold CF.ll2ecef
    simp only [Matrix.cons_val_zero, Matrix.cons_val_one, hn, hs, hc, abs_of_nonpos h, c1, s1]
    ring_nf

theorem ne2ll_lat (p o : LL) : -(90 + 1 / 10 ^ 11) ≤ CF.ne2ll p o 0 ∧ CF.ne2ll p o 0 ≤ 90 + 1 / 10 ^ 11 := by
  have e : CF.ne2ll p o = CF.ecef2ll (CF.ll2ecef ![CF.ecef2ll (CF.ll2ecef o +
      (CF.nedrot (o 0) (o 1))ᵀ *ᵥ ![p 0, p 1, 0]) 0, CF.ecef2ll (CF.ll2ecef o +
      (CF.nedrot (o 0) (o 1))ᵀ *ᵥ ![p 0, p 1, 0]) 1]) := rfl
  rw [e]
  obtain ⟨f, l, h1, h2, h3⟩ := wrap (CF.ecef2ll (CF.ll2ecef o +
      (CF.nedrot (o 0) (o 1))ᵀ *ᵥ ![p 0, p 1, 0]) 0) (CF.ecef2ll (CF.ll2ecef o +
      (CF.nedrot (o 0) (o 1))ᵀ *ᵥ ![p 0, p 1, 0]) 1)
  rw [h3]
  have := abs_le.1 (CF.C64_latitude f l h1 h2)
  constructor <;> linarith [this.1, this.2]

/-- Latitudes and longitudes of all components are in range. -/
def LonOk (p : Pdf) : Prop := ∀ g ∈ p.mix.c, (-180 < g.x.1 1 ∧ g.x.1 1 ≤ 180) ∧
  -(90 + 1 / 10 ^ 11) ≤ g.x.1 0 ∧ g.x.1 0 ≤ 90 + 1 / 10 ^ 11

theorem lon_toGlobal (k : Opts) (p : Pdf) : LonOk (toGlobal k p) := by
  intro g hg
  obtain ⟨g', _, rfl⟩ := List.mem_map.1 hg
  exact ⟨ne2ll_lon _ _, ne2ll_lat _ _⟩

theorem lon_compute {k : Opts} {s : PSens} {prm : Params}
    {pick : ∀ r c, List (Murty.Node r c) → Nat} {fuel : Nat} {wt : ℚ → ℝ}
    {ts : List (Nat × Tgt Pdf)} {rs : List Rpt} {v : Comp Pdf Rpt}
    (e : compute (env k) (sensor k s) prm pick fuel wt ts rs = some v) :
    ∀ t ∈ v.ts, LonOk t.pdf := by
  unfold compute at e
  simp only at e
  split at e
  · injection e with e
    subst e
    intro t ht
    simp at ht
  · split at e
    · cases e
    · split at e
      · injection e with e
        subst e
        intro t ht
        obtain ⟨y, hy, rfl⟩ := List.mem_map.1 ht
        exact lon_toGlobal k _
      · injection e with e
        subst e
        intro t ht
        simp only [List.mem_ofFn, Set.mem_range] at ht
        obtain ⟨i, rfl⟩ := ht
        exact lon_toGlobal k _

/-- **C125, range** After any history, the longitude of every component of every target is above -180 and at
most 180 degrees, and that of the position reported for a target is from -180 to 180.  The latitudes are from -90 to
90 degrees, to within `10⁻¹¹` degrees, which is one micrometre. -/
theorem C125_range {k : Opts} (hk : OptsOk k) {prm : Params} (hB0 : 0 ≤ prm.rBmax)
    (hB1 : prm.rBmax ≤ 1) {calls : List (Call Pdf Rpt)} (hc : ∀ c ∈ calls, SysCall k prm c)
    {fuel : Nat} {s : St Pdf} (e : run (env k) prm fuel calls St.empty = some s) {a : Nat}
    {t : Tgt Pdf} (ht : s.heap a = some t) :
    (∀ g ∈ t.pdf.mix.c, (-180 < g.x.1 1 ∧ g.x.1 1 ≤ 180) ∧
      -(90 + 1 / 10 ^ 11) ≤ g.x.1 0 ∧ g.x.1 0 ≤ 90 + 1 / 10 ^ 11) ∧
    (-180 ≤ pos t.pdf 1 ∧ pos t.pdf 1 ≤ 180) ∧
    -(90 + 1 / 10 ^ 11) ≤ pos t.pdf 0 ∧ pos t.pdf 0 ≤ 90 + 1 / 10 ^ 11 := by
  have h : LonOk t.pdf := by
    refine run_tgt (T := fun t => LonOk t.pdf) (env_box k) ?_ (fun c h => sysCall_ok (hc c h)) ?_ e a t ht
    · intro t u _ h2 h
      rw [h2]
      exact h
    · intro c hcm
      have h := hc c hcm
      cases c with
      | predict m ord => intro t _ _; exact lon_toGlobal k _
      | correct S ch scan dflt =>
        obtain ⟨⟨sn, _, rfl⟩, _⟩ := h
        exact ⟨fun ts rs v _ _ hv t ht _ => lon_compute hv t ht, fun z _ _ _ _ => lon_toGlobal k _⟩
  have hg := C66_densities_proper hk hB0 hB1 hc e a t ht
  have h1 := mean_between t.pdf.mix.c 1 (-180) 180 (fun g hgm => (hg.2.2.2.1 g hgm).1)
    fun g hgm => ⟨(h g hgm).1.1.le, (h g hgm).1.2⟩
  have h0 := mean_between t.pdf.mix.c 0 (-(90 + 1 / 10 ^ 11)) (90 + 1 / 10 ^ 11)
    (fun g hgm => (hg.2.2.2.1 g hgm).1) fun g hgm => (h g hgm).2
  rw [hg.2.2.2.2.1, one_mul, one_mul] at h1 h0
  exact ⟨h, h1, h0⟩

/-! ## The forecast -/

theorem mean_move (F Q : Matrix (Fin 4) (Fin 4) ℝ) (p : Pdf) :
    Kalman.mean ((moveMix F Q p).mix.c.map toG) = F *ᵥ Kalman.mean (p.mix.c.map toG) := by
  rw [Kalman.mean_eq, Kalman.mean_eq]
  unfold moveMix
  simp only
  induction p.mix.c with
  | nil => simp
  | cons g l ih =>
    simp only [List.map_cons, List.sum_cons, Matrix.mulVec_add] at ih ⊢
    rw [ih]
    congr 1
    exact (Matrix.mulVec_smul F g.w g.x.1).symm

/-- **C125, forecast** In a local frame, the forecast for a density is the mean that it has after the prediction, for
every time step and every noise; forecasts one after the other are one forecast over the sum of the times. -/
theorem C125_forecast (p : Pdf) (pS q dT : ℝ) (x : Fin 4 → ℝ) (a b : ℝ) :
    forecast dT (Kalman.mean (p.mix.c.map toG)) = Kalman.mean (((cv pS q dT).pdf p).mix.c.map toG) ∧
    forecast b (forecast a x) = forecast (a + b) x ∧
    forecast dT x = ![x 0 + dT * x 2, x 1 + dT * x 3, x 2, x 3] := by
  refine ⟨(mean_move _ _ _).symm, ?_, ?_⟩
  · ext i
    fin_cases i <;> simp [forecast, Kalman.cvF, Matrix.mulVec, dotProduct, Fin.sum_univ_four] <;> ring
  · ext i
    fin_cases i <;> simp [forecast, Kalman.cvF, Matrix.mulVec, dotProduct, Fin.sum_univ_four]

/-- **C125, refuted for targets** For a target as the tracker holds it, the position is in degrees and the speed in
metres per second, and the forecast adds them.  If the mean speed to the east times the time step is above 360 (a
ship at 10 m/s, 37 seconds), the longitude of the forecast is above 180, and so it is not that of the target after
the prediction over the same time. -/
theorem C125_forecast_refuted (k : Opts) (t : Tgt Pdf) (hw : ∀ g ∈ t.pdf.mix.c, 0 ≤ g.w)
    (h1 : (t.pdf.mix.c.map fun g => g.w).sum = 1) (hl : -180 ≤ Kalman.mean (t.pdf.mix.c.map toG) 1)
    {pS q dT : ℝ} (hv : 360 < dT * Kalman.mean (t.pdf.mix.c.map toG) 3) :
    180 < forecast dT (Kalman.mean (t.pdf.mix.c.map toG)) 1 ∧
    Kalman.mean ((predictTgt (env k) (cv pS q dT) t).pdf.mix.c.map toG) 1 ≤ 180 := by
  constructor
  · rw [(C125_forecast t.pdf pS q dT _ 0 0).2.2]
    show 180 < Kalman.mean (t.pdf.mix.c.map toG) 1 + dT * Kalman.mean (t.pdf.mix.c.map toG) 3
    linarith
  · set p := (cv pS q dT).pdf (toLocal (pos t.pdf) t.pdf) with hp
    have hpw : p.mix.c.map GM.Cmp.w = t.pdf.mix.c.map GM.Cmp.w := by
      show (List.map _ (List.map _ t.pdf.mix.c)).map GM.Cmp.w = _
      rw [List.map_map, List.map_map]
      rfl
    have hs : GM.wsum p.mix.c = 1 := by rw [GM.wsum_eq, hpw]; exact h1
    have hn : GM.normalize p.mix = ⟨p.mix.c, 1⟩ := by
      unfold GM.normalize
      rw [hs, if_pos (by norm_num)]
      simp
    have hc : (predictTgt (env k) (cv pS q dT) t).pdf.mix.c = cGlobal p.origin p.mix.c := by
      show cGlobal p.origin (GM.normalize p.mix).c = _
      rw [hn]
    have hcw : (cGlobal p.origin p.mix.c).map GM.Cmp.w = t.pdf.mix.c.map GM.Cmp.w := by
      rw [← hpw]
      unfold cGlobal
      rw [List.map_map]
      rfl
    have h2 := (mean_between (cGlobal p.origin p.mix.c) 1 (-180) 180 (by
        intro g hg
        have : g.w ∈ t.pdf.mix.c.map GM.Cmp.w := by rw [← hcw]; exact List.mem_map_of_mem hg
        obtain ⟨g', hg', e⟩ := List.mem_map.1 this
        rw [← e]
        exact hw g' hg') (by
        intro g hg
        obtain ⟨g', _, rfl⟩ := List.mem_map.1 hg
        exact ⟨(ne2ll_lon _ _).1.le, (ne2ll_lon _ _).2⟩)).2
    rw [hcw] at h2
    rw [hc]
    refine h2.trans ?_
    have : (t.pdf.mix.c.map GM.Cmp.w).sum = 1 := h1
    rw [this, one_mul]

/-! ## Examples -/

example : ∃ s a t, run (env exOpts) exPrm 0 (exHist.take 1) St.empty = some s ∧ s.heap a = some t ∧
    -180 ≤ pos t.pdf 1 ∧ pos t.pdf 1 ≤ 180 := by
  obtain ⟨s, a, t, g, h1, h2, _⟩ := exNewborn
  exact ⟨s, a, t, h1, h2, (C125_range exOpts_ok (prm := exPrm) (by show (0 : ℝ) ≤ 4 / 5; norm_num)
    (by show (4 : ℝ) / 5 ≤ 1; norm_num) (fun c h => exHist_ok c (List.mem_of_mem_take h)) h1 h2).2.1⟩

example := C125_forecast ⟨⟨[⟨(![0, 15, 10, -3], 1), 1 / 4⟩, ⟨(![1, 16, 11, 2], 1), 3 / 4⟩], 1⟩, 0, Box.zero⟩
  (9 / 10) 1 2 ![0, 15, 10, -3] 1 2

/-- A ship at 58° N 15° E that makes 10 m/s to the east, after 37 seconds. -/
example (k : Opts) :
    let t : Tgt Pdf := ⟨1, 1, ⟨⟨[⟨(![58, 15, 0, 10], 1), 1⟩], 1⟩, 0, Box.zero⟩, 0, 'c'⟩
    180 < forecast 37 (Kalman.mean (t.pdf.mix.c.map toG)) 1 ∧
    Kalman.mean ((predictTgt (env k) (cv 1 1 37) t).pdf.mix.c.map toG) 1 ≤ 180 := by
  intro t
  have e : Kalman.mean (t.pdf.mix.c.map toG) = ![58, 15, 0, 10] := by
    rw [Kalman.mean_eq]
    simp [t, toG]
  refine C125_forecast_refuted k t (by simp [t]) (by simp [t]) ?_ ?_
  · rw [e]; show (-180 : ℝ) ≤ 15; norm_num
  · rw [e]; show (360 : ℝ) < 37 * 10; norm_num

end Verif.System
