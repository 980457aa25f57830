import Verif.RTreeF.Model
import Verif.RTree.Split

/-! Helper lemmas: areas in `double` arithmetic. -/

namespace Verif.RTreeF

open Verif.Lap Verif.LapF XR
open Verif.RTree (Rect Areas Good combine)

/-! ## Rounding is monotone -/

theorem round64_fin {x : ℚ} (hx : |x| ≤ 2 ^ 1000) : ∃ r, round64 x = fin r ∧ IsDouble r := by
  have hup : (0:ℚ) < 2 ^ ulpExp x := zpow_pos (by norm_num) _
  have h0 := rne_nearest (x / 2 ^ ulpExp x) 0
  have h1 : |(rne (x / 2 ^ ulpExp x) : ℚ)| ≤ 2 * |x / 2 ^ ulpExp x| := by
    have := abs_sub_abs_le_abs_sub (rne (x / 2 ^ ulpExp x) : ℚ) (x / 2 ^ ulpExp x)
    rw [Int.cast_zero, zero_sub, abs_neg] at h0
    linarith
  have h2 : |(rne (x / 2 ^ ulpExp x) : ℚ) * 2 ^ ulpExp x| ≤ 2 * |x| := by
    rw [abs_mul, abs_of_pos hup]
    rw [abs_div, abs_of_pos hup] at h1
    calc _ ≤ 2 * (|x| / 2 ^ ulpExp x) * 2 ^ ulpExp x := mul_le_mul_of_nonneg_right h1 hup.le
      _ = 2 * |x| := by rw [mul_assoc, div_mul_cancel₀ _ hup.ne']
  have h3 : round64 x = fin (rne (x / 2 ^ ulpExp x) * 2 ^ ulpExp x) := by
    refine round64_of_lt rfl (lt_of_le_of_lt h2 ?_)
    calc (2:ℚ) * |x| ≤ 2 * 2 ^ 1000 := by linarith
      _ = 2 ^ 1001 := (pow_succ' 2 1000).symm
      _ < 2 ^ 1024 := pow_lt_pow_right₀ (by norm_num) (by norm_num)
  exact ⟨_, h3, isDouble_of_round64 h3⟩

theorem round64_mono {x y r s : ℚ} (hx : round64 x = fin r) (hy : round64 y = fin s) (h : x ≤ y) :
    r ≤ s := by
  by_contra hlt
  push Not at hlt
  have h1 := round64_nearest hx (isDouble_of_round64 hy)
  have h2 := round64_nearest hy (isDouble_of_round64 hx)
  have hxy : x = y := by
    rcases abs_cases (r - x) with ⟨a, _⟩ | ⟨a, _⟩ <;> rcases abs_cases (s - x) with ⟨b, _⟩ | ⟨b, _⟩ <;>
      rcases abs_cases (s - y) with ⟨c, _⟩ | ⟨c, _⟩ <;>
      rcases abs_cases (r - y) with ⟨d, _⟩ | ⟨d, _⟩ <;> linarith
  subst hxy
  rw [hx] at hy
  exact absurd (XR.fin.inj hy) (ne_of_gt hlt)

theorem isDouble_zero : IsDouble 0 := ⟨0, 0, by simp, by norm_num, by norm_num, by norm_num⟩

theorem isDouble_pow {k : Nat} (hk : k ≤ 971) : IsDouble (2 ^ k) :=
  ⟨1, k, by simp, by norm_num, by omega, by omega⟩

theorem round64_pow {k : Nat} (hk : k ≤ 971) : round64 (2 ^ k) = fin (2 ^ k) := by
  refine round64_double (isDouble_pow hk) ?_
  rw [abs_of_pos (pow_pos (by norm_num) _)]
  exact pow_lt_pow_right₀ (by norm_num) (by omega)

theorem round64_bd {x : ℚ} {k : Nat} (hk : k ≤ 900) (h0 : 0 ≤ x) (hx : x ≤ 2 ^ k) :
    ∃ r, round64 x = fin r ∧ 0 ≤ r ∧ r ≤ 2 ^ k ∧ IsDouble r := by
  obtain ⟨r, hr, hd⟩ := round64_fin (x := x) (by
    rw [abs_of_nonneg h0]
    exact hx.trans (pow_le_pow_right₀ (by norm_num) (by omega)))
  exact ⟨r, hr, round64_mono round64_zero hr h0, round64_mono hr (round64_pow (by omega)) hx, hd⟩

/-! ## Square roots -/

theorem sqrt_mono {sq : ℚ → ℚ} (hs : CorrectSqrt sq) {x y : ℚ} (dx : IsDouble x) (dy : IsDouble y)
    (h0 : 0 ≤ x) (h : x ≤ y) : sq x ≤ sq y := by
  by_contra hlt
  push Not at hlt
  obtain ⟨ex, nx⟩ := hs x dx h0
  obtain ⟨ey, ny⟩ := hs y dy (h0.trans h)
  have h1 := nx _ ey
  have h2 := ny _ ex
  have hm : Real.sqrt x ≤ Real.sqrt y := Real.sqrt_le_sqrt (by exact_mod_cast h)
  have hlt' : (sq y : ℝ) < sq x := by exact_mod_cast hlt
  have hxy : Real.sqrt x = Real.sqrt y := by
    generalize Real.sqrt x = a at *
    generalize Real.sqrt y = b at *
    rcases abs_cases ((sq x : ℝ) - a) with ⟨p, _⟩ | ⟨p, _⟩ <;>
      rcases abs_cases ((sq y : ℝ) - a) with ⟨q, _⟩ | ⟨q, _⟩ <;>
      rcases abs_cases ((sq y : ℝ) - b) with ⟨r, _⟩ | ⟨r, _⟩ <;>
      rcases abs_cases ((sq x : ℝ) - b) with ⟨s, _⟩ | ⟨s, _⟩ <;> linarith
  have : (x : ℝ) = y := (Real.sqrt_inj (by exact_mod_cast h0) (by exact_mod_cast h0.trans h)).1 hxy
  have : x = y := by exact_mod_cast this
  subst this
  exact lt_irrefl _ hlt

theorem sqrt_square {sq : ℚ → ℚ} (hs : CorrectSqrt sq) {d : ℚ} (hd : IsDouble d)
    (hd2 : IsDouble (d * d)) (h0 : 0 ≤ d) : sq (d * d) = d := by
  have := (hs (d * d) hd2 (mul_self_nonneg d)).2 d hd
  have e : Real.sqrt ((d * d : ℚ) : ℝ) = d := by
    push_cast
    exact Real.sqrt_mul_self (by exact_mod_cast h0)
  rw [e, sub_self, abs_zero] at this
  have := sub_eq_zero.1 (abs_nonpos_iff.1 this)
  exact_mod_cast this

/-- The requirement on `sqrt` can be met. -/
theorem correctSqrt_exists : ∃ sq, CorrectSqrt sq := by
  have hfin : Set.Finite {q : ℚ | IsDouble q} := by
    have : {q : ℚ | IsDouble q} ⊆
        (fun p : ℤ × ℤ => (p.1 : ℚ) * 2 ^ p.2) '' (Set.Icc (-2 ^ 53) (2 ^ 53) ×ˢ Set.Icc (-1074) 971) := by
      rintro q ⟨z, e, rfl, hz, h1, h2⟩
      rw [abs_lt] at hz
      exact ⟨(z, e), ⟨⟨hz.1.le, hz.2.le⟩, ⟨h1, h2⟩⟩, rfl⟩
    exact Set.Finite.subset (Set.Finite.image _
      (Set.Finite.prod (Set.finite_Icc _ _) (Set.finite_Icc _ _))) this
  have key : ∀ x : ℚ, ∃ d, IsDouble d ∧
      ∀ d', IsDouble d' → |(d : ℝ) - Real.sqrt x| ≤ |(d' : ℝ) - Real.sqrt x| := by
    intro x
    obtain ⟨d, hd, hmin⟩ := Set.exists_min_image _ (fun d : ℚ => |(d : ℝ) - Real.sqrt x|) hfin
      ⟨0, isDouble_zero⟩
    exact ⟨d, hd, fun d' hd' => hmin d' hd'⟩
  choose sq h1 h2 using key
  exact ⟨sq, fun x _ _ => ⟨h1 x, h2 x⟩⟩

/-! ## Areas -/

/-- The rectangle `[-2²³, 2²³]²`. -/
def box64 : Rect := ⟨-2 ^ 23, -2 ^ 23, 2 ^ 23, 2 ^ 23⟩

/-- Coordinates between `-2²³` and `2²³`. -/
def Bd64 : Rect → Prop := fun q => q = box64

theorem half_spec {lo hi : ℚ} (h : lo ≤ hi) (h1 : -2 ^ 23 ≤ lo) (h2 : hi ≤ 2 ^ 23) :
    ∃ d h, round64 (hi - lo) = fin d ∧ round64 (d * (1 / 2)) = fin h ∧ half64 lo hi = fin h ∧
      0 ≤ h ∧ h ≤ 2 ^ 23 ∧ IsDouble h := by
  obtain ⟨d, e1, d0, d1, _⟩ := round64_bd (x := hi - lo) (k := 24) (by norm_num) (by linarith)
    (by norm_num at *; linarith)
  obtain ⟨q, e2, q0, q1, q2⟩ := round64_bd (x := d * (1 / 2)) (k := 23) (by norm_num) (by linarith)
    (by norm_num at *; linarith)
  refine ⟨d, q, e1, e2, ?_, q0, q1, q2⟩
  show mul64 (round64 (hi - lo)) _ = _
  rw [e1]
  exact e2

theorem half_mono {lo hi lo' hi' h h' : ℚ} (e : half64 lo hi = fin h) (e' : half64 lo' hi' = fin h')
    (hv : lo ≤ hi) (h1 : lo' ≤ lo) (h2 : hi ≤ hi') (b1 : -2 ^ 23 ≤ lo') (b2 : hi' ≤ 2 ^ 23) :
    h ≤ h' := by
  obtain ⟨d, q, a1, a2, a3, _⟩ := half_spec hv (b1.trans h1) (h2.trans b2)
  obtain ⟨d', q', a1', a2', a3', _⟩ := half_spec (h1.trans (hv.trans h2)) b1 b2
  rw [a3] at e
  rw [a3'] at e'
  obtain rfl := XR.fin.inj e
  obtain rfl := XR.fin.inj e'
  have := round64_mono a1 a1' (by linarith)
  exact round64_mono a2 a2' (by linarith)

theorem pi_le : RTree.unitSphereVolume ≤ 4 := by norm_num [RTree.unitSphereVolume]

theorem pi_nonneg : 0 ≤ RTree.unitSphereVolume := by norm_num [RTree.unitSphereVolume]

/-- The steps of `RectSphericalVolume` on two half extents. -/
theorem chain_spec {sq : ℚ → ℚ} (hs : CorrectSqrt sq) {h0 h1 : ℚ} (a0 : 0 ≤ h0) (a1 : 0 ≤ h1)
    (b0 : h0 ≤ 2 ^ 23) (b1 : h1 ≤ 2 ^ 23) :
    ∃ q0 q1 t s p v, round64 (h0 * h0) = fin q0 ∧ round64 (h1 * h1) = fin q1 ∧
      round64 (0 + q0) = fin t ∧ round64 (t + q1) = fin s ∧ round64 (sq s * sq s) = fin p ∧
      round64 (p * RTree.unitSphereVolume) = fin v ∧ IsDouble s ∧ 0 ≤ q0 ∧ 0 ≤ q1 ∧ 0 ≤ s ∧
      0 ≤ sq s ∧ 0 ≤ p ∧ 0 ≤ v ∧ v ≤ 2 ^ 50 ∧ IsDouble v := by
  have sqb : ∀ h : ℚ, 0 ≤ h → h ≤ 2 ^ 23 → h * h ≤ 2 ^ 46 := by
    intro h x y
    calc h * h ≤ 2 ^ 23 * 2 ^ 23 := mul_le_mul y y x (by norm_num)
      _ = 2 ^ 46 := by norm_num
  obtain ⟨q0, e0, x0, y0, _⟩ := round64_bd (k := 46) (by norm_num) (mul_self_nonneg h0) (sqb h0 a0 b0)
  obtain ⟨q1, e1, x1, y1, _⟩ := round64_bd (k := 46) (by norm_num) (mul_self_nonneg h1) (sqb h1 a1 b1)
  obtain ⟨t, e2, x2, y2, _⟩ := round64_bd (x := 0 + q0) (k := 46) (by norm_num) (by linarith)
    (by linarith)
  obtain ⟨s, e3, x3, y3, d3⟩ := round64_bd (x := t + q1) (k := 47) (by norm_num) (by linarith)
    (by norm_num at *; linarith)
  have r0 : sq 0 = 0 := by
    have := sqrt_square hs isDouble_zero (by simpa using isDouble_zero) (le_refl _)
    simpa using this
  have r1 : 0 ≤ sq s := by
    have := sqrt_mono hs isDouble_zero d3 (le_refl _) x3
    rwa [r0] at this
  have r2 : sq s ≤ 2 ^ 24 := by
    have e : (2 ^ 24 * 2 ^ 24 : ℚ) = 2 ^ 48 := by norm_num
    have h := sqrt_square hs (d := 2 ^ 24) (isDouble_pow (by norm_num))
      (by rw [e]; exact isDouble_pow (by norm_num)) (by norm_num)
    rw [← h]
    refine sqrt_mono hs d3 (by rw [e]; exact isDouble_pow (by norm_num)) x3 ?_
    norm_num at *; linarith
  obtain ⟨p, e4, x4, y4, _⟩ := round64_bd (x := sq s * sq s) (k := 48) (by norm_num)
    (mul_self_nonneg _) (by
      calc sq s * sq s ≤ 2 ^ 24 * 2 ^ 24 := mul_le_mul r2 r2 r1 (by norm_num)
        _ = 2 ^ 48 := by norm_num)
  obtain ⟨v, e5, x5, y5, d5⟩ := round64_bd (x := p * RTree.unitSphereVolume) (k := 50) (by norm_num)
    (mul_nonneg x4 pi_nonneg) (by
      calc p * RTree.unitSphereVolume ≤ 2 ^ 48 * 4 := mul_le_mul y4 pi_le pi_nonneg (by norm_num)
        _ = 2 ^ 50 := by norm_num)
  exact ⟨q0, q1, t, s, p, v, e0, e1, e2, e3, e4, e5, d3, x0, x1, x3, r1, x4, x5, y5, d5⟩

theorem vol64_eq {sq : ℚ → ℚ} {r : Rect} {h0 h1 q0 q1 t s p v : ℚ}
    (e0 : half64 r.minx r.maxx = fin h0) (e1 : half64 r.miny r.maxy = fin h1)
    (e2 : round64 (h0 * h0) = fin q0) (e3 : round64 (h1 * h1) = fin q1)
    (e4 : round64 (0 + q0) = fin t) (e5 : round64 (t + q1) = fin s) (hs : 0 ≤ s)
    (e6 : round64 (sq s * sq s) = fin p) (e7 : round64 (p * RTree.unitSphereVolume) = fin v) :
    vol64 sq r = fin v := by
  have m : ∀ a b, mul64 (fin a) (fin b) = round64 (a * b) := fun _ _ => rfl
  have ad : ∀ a b, b64.add (fin a) (fin b) = round64 (a + b) := fun _ _ => rfl
  unfold vol64
  simp only [e0, e1, m, e2, e3, ad, e4, e5]
  have : sqrt64 sq (fin s) = fin (sq s) := by
    show (if s < 0 then XR.nan else fin (sq s)) = _
    rw [if_neg (not_lt.2 hs)]
  rw [this, m, e6, m, e7]

theorem good_bounds {r : Rect} (h : Good Bd64 r) :
    r.minx ≤ r.maxx ∧ r.miny ≤ r.maxy ∧ -2 ^ 23 ≤ r.minx ∧ -2 ^ 23 ≤ r.miny ∧ r.maxx ≤ 2 ^ 23 ∧
      r.maxy ≤ 2 ^ 23 := by
  obtain ⟨⟨h1, h2⟩, h3⟩ := h
  obtain ⟨a, b, c, d⟩ := h3 _ rfl
  exact ⟨h1, h2, a, b, c, d⟩

theorem vol64_spec {sq : ℚ → ℚ} (hs : CorrectSqrt sq) {r : Rect} (h : Good Bd64 r) :
    ∃ v, vol64 sq r = fin v ∧ 0 ≤ v ∧ v ≤ 2 ^ 50 ∧ IsDouble v := by
  obtain ⟨v1, v2, a, b, c, d⟩ := good_bounds h
  obtain ⟨_, h0, _, _, e0, x0, y0, _⟩ := half_spec v1 a c
  obtain ⟨_, h1, _, _, e1, x1, y1, _⟩ := half_spec v2 b d
  obtain ⟨q0, q1, t, s, p, v, f0, f1, f2, f3, f4, f5, _, _, _, s0, _, _, w0, w1, w2⟩ :=
    chain_spec hs x0 x1 y0 y1
  exact ⟨v, vol64_eq e0 e1 f0 f1 f2 f3 s0 f4 f5, w0, w1, w2⟩

/-- Rounding keeps areas monotone. -/
theorem vol64_mono {sq : ℚ → ℚ} (hs : CorrectSqrt sq) {r r' : Rect} (h : Good Bd64 r)
    (h' : Good Bd64 r') (hsub : r.Sub r') {v v' : ℚ} (hv : vol64 sq r = fin v)
    (hv' : vol64 sq r' = fin v') : v ≤ v' := by
  obtain ⟨v1, v2, a, b, c, d⟩ := good_bounds h
  obtain ⟨v1', v2', a', b', c', d'⟩ := good_bounds h'
  obtain ⟨s1, s2, s3, s4⟩ := hsub
  obtain ⟨_, h0, _, _, e0, x0, y0, _⟩ := half_spec v1 a c
  obtain ⟨_, h1, _, _, e1, x1, y1, _⟩ := half_spec v2 b d
  obtain ⟨_, h0', _, _, e0', x0', y0', _⟩ := half_spec v1' a' c'
  obtain ⟨_, h1', _, _, e1', x1', y1', _⟩ := half_spec v2' b' d'
  have l0 := half_mono e0 e0' v1 s1 s3 a' c'
  have l1 := half_mono e1 e1' v2 s2 s4 b' d'
  obtain ⟨q0, q1, t, s, p, w, f0, f1, f2, f3, f4, f5, ds, _, _, z0, r0, p0, _⟩ :=
    chain_spec hs x0 x1 y0 y1
  obtain ⟨q0', q1', t', s', p', w', f0', f1', f2', f3', f4', f5', ds', _, _, z0', r0', p0', _⟩ :=
    chain_spec hs x0' x1' y0' y1'
  rw [vol64_eq e0 e1 f0 f1 f2 f3 z0 f4 f5] at hv
  rw [vol64_eq e0' e1' f0' f1' f2' f3' z0' f4' f5'] at hv'
  obtain rfl := XR.fin.inj hv
  obtain rfl := XR.fin.inj hv'
  have m0 := round64_mono f0 f0' (mul_self_le_mul_self x0 l0)
  have m1 := round64_mono f1 f1' (mul_self_le_mul_self x1 l1)
  have m2 := round64_mono f2 f2' (by linarith)
  have m3 := round64_mono f3 f3' (by linarith)
  have m4 := sqrt_mono hs ds ds' z0 m3
  have m5 := round64_mono f4 f4' (mul_self_le_mul_self r0 m4)
  exact round64_mono f5 f5' (mul_le_mul_of_nonneg_right m5 pi_nonneg)

/-! ## The split algorithm works with rounded areas -/

theorem sub64 {a b X : ℚ} (ha : IsDouble a) (hb : IsDouble b) (h : |a - b| ≤ X) (hX : X ≤ 2 ^ 60) :
    ∃ r, b64.sub (fin a) (fin b) = fin r ∧ |r - (a - b)| ≤ X / 2 ^ 53 ∧ IsDouble r := by
  obtain ⟨r, e, hr, _⟩ := round64_spec (OnGrid.sub ha.onGrid hb.onGrid) h
    (hX.trans (pow_le_pow_right₀ (by norm_num) (by norm_num)))
  exact ⟨r, e, hr, isDouble_of_round64 e⟩

theorem IsDouble.neg {a : ℚ} (h : IsDouble a) : IsDouble (-a) := by
  obtain ⟨z, e, rfl, h1, h2⟩ := h
  exact ⟨-z, e, by push_cast; ring, by rwa [abs_neg], h2⟩

theorem isDouble_one : IsDouble 1 := by simpa using isDouble_pow (k := 0) (by norm_num)

theorem areas64_ok {sq : ℚ → ℚ} (hs : CorrectSqrt sq) : (areas64 sq).Ok Bd64 where
  seeds := by
    intro a b c ha hb hc hac hbc
    obtain ⟨va, ea, a0, a1, da⟩ := vol64_spec hs ha
    obtain ⟨vb, eb, b0, b1, db⟩ := vol64_spec hs hb
    obtain ⟨vc, ec, c0, c1, dc⟩ := vol64_spec hs hc
    obtain ⟨vm, em, m0, m1, dm⟩ := vol64_spec hs (ha.combine hb)
    have l1 := vol64_mono hs hb (ha.combine hb) (RTree.sub_combine_right a b) eb em
    have l2 := vol64_mono hs ha hc hac ea ec
    obtain ⟨x, ex, hx, dx⟩ := sub64 dm da (X := 2 ^ 50) (by
      rw [abs_le]; constructor <;> linarith) (by norm_num)
    have hx' := abs_le.1 hx
    norm_num at hx' a1 b1 c1 m1
    obtain ⟨w, ew, hw, dw⟩ := sub64 dx db (X := 2 ^ 51) (by
      rw [abs_le]; norm_num; constructor <;> linarith) (by norm_num)
    obtain ⟨u, eu, hu, du⟩ := sub64 (IsDouble.neg dc) isDouble_one (X := 2 ^ 51) (by
      rw [abs_le]; norm_num; constructor <;> linarith) (by norm_num)
    have hw' := abs_le.1 hw
    have hu' := abs_le.1 hu
    norm_num at hw' hu'
    show XR.lt (b64.sub (neg64 (vol64 sq c)) (fin 1))
      (b64.sub (b64.sub (vol64 sq (combine a b)) (vol64 sq a)) (vol64 sq b)) = true
    rw [ea, eb, ec, em, ex, ew]
    show XR.lt (b64.sub (fin (-vc)) (fin 1)) (fin w) = true
    rw [eu]
    show decide (u < w) = true
    rw [decide_eq_true_eq]
    linarith [hw'.1, hw'.2, hu'.1, hu'.2, hx'.1, hx'.2]
  diff := by
    intro a b c e d ha hb hc he hd
    obtain ⟨va, ea, a0, a1, da⟩ := vol64_spec hs ha
    obtain ⟨vb, eb, b0, b1, db⟩ := vol64_spec hs hb
    obtain ⟨vc, ec, c0, c1, dc⟩ := vol64_spec hs hc
    obtain ⟨ve, ee, e0, e1, de⟩ := vol64_spec hs he
    obtain ⟨x, ex, hx, dx⟩ := sub64 da db (X := 2 ^ 50) (by
      rw [abs_le]; constructor <;> linarith) (by norm_num)
    obtain ⟨y, ey, hy, dy⟩ := sub64 dc de (X := 2 ^ 50) (by
      rw [abs_le]; constructor <;> linarith) (by norm_num)
    have hx' := abs_le.1 hx
    have hy' := abs_le.1 hy
    norm_num at hx' hy' a1 b1 c1 e1
    obtain ⟨z, ez, _, _⟩ := sub64 dx dy (X := 2 ^ 55) (by
      rw [abs_le]; norm_num; constructor <;> linarith) (by norm_num)
    have hz : d = fin z := by
      rw [hd]
      show b64.sub (b64.sub (vol64 sq a) (vol64 sq b)) (b64.sub (vol64 sq c) (vol64 sq e)) = _
      rw [ea, eb, ec, ee, ex, ey, ez]
    subst hz
    show XR.lt (neg64 (fin 1)) (if XR.lt (fin 0) (fin z) || XR.feq (fin z) (fin 0) then fin z
      else neg64 (fin z)) = true
    by_cases h : 0 ≤ z
    · have : (XR.lt (fin 0) (fin z) || XR.feq (fin z) (fin 0)) = true := by
        simp only [XR.lt, XR.feq, Bool.or_eq_true, decide_eq_true_eq]
        rcases h.lt_or_eq with h | h
        · exact Or.inl h
        · exact Or.inr h.symm
      rw [if_pos this]
      show decide (-1 < z) = true
      rw [decide_eq_true_eq]; linarith
    · have : ¬ (XR.lt (fin 0) (fin z) || XR.feq (fin z) (fin 0)) = true := by
        simp only [XR.lt, XR.feq, Bool.or_eq_true, decide_eq_true_eq]
        rintro (h' | h') <;> linarith
      rw [if_neg this]
      show decide (-1 < -z) = true
      rw [decide_eq_true_eq]; linarith

end Verif.RTreeF
