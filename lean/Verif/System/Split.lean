import Verif.System.Units

/-!
# C99: predicting in one step or in two

A prediction over `a + b` and predictions over `a` and then over `b` with the constant-velocity model:
what is the same afterwards, and what is not.
-/

namespace Verif.System

open Verif.Tracker Matrix
open Verif.Kalman (Gauss cvF cvQ linearUpdate)

/-! ## The norm of the position block -/

/-- The square of the Frobenius norm of the position block, `poscov().norm()` in `target.hpp:85`. -/
def nsq (A : Matrix (Fin 4) (Fin 4) ℝ) : ℝ :=
  A 0 0 * A 0 0 + A 0 1 * A 0 1 + A 1 0 * A 1 0 + A 1 1 * A 1 1

theorem single_le {p : Pdf} {g : Cmp} (h : p.mix.c = [g]) (hw : g.w = 1) (c : ℝ) :
    covNorm p ≤ c ↔ 0 ≤ c ∧ nsq g.x.2 ≤ c ^ 2 := by
  rw [single_norm h hw]
  exact Real.sqrt_le_iff

/-- The trace of the product of two positive semidefinite matrices of size two. -/
theorem trace_nonneg {a b d x y z : ℝ} (ha : 0 ≤ a) (hd : 0 ≤ d) (h1 : b * b ≤ a * d) (hx : 0 ≤ x)
    (hz : 0 ≤ z) (h2 : y * y ≤ x * z) : 0 ≤ a * x + 2 * (b * y) + d * z := by
  have h3 : (b * y) ^ 2 ≤ (a * x) * (d * z) := by
    have := mul_le_mul h1 h2 (mul_self_nonneg y) (mul_nonneg ha hd)
    nlinarith
  have p1 := mul_nonneg ha hx
  have p2 := mul_nonneg hd hz
  have h4 : (2 * (b * y)) ^ 2 ≤ (a * x + d * z) ^ 2 := by nlinarith [sq_nonneg (a * x - d * z)]
  have h5 := abs_le_of_sq_le_sq' h4 (by linarith)
  linarith [h5.1]

theorem pd_minor {P : Matrix (Fin 4) (Fin 4) ℝ} (h : P.PosSemidef) (i j : Fin 4) :
    0 ≤ P i i ∧ P j i = P i j ∧ P i j * P i j ≤ P i i * P j j := by
  have hs : P j i = P i j := by
    have := congrFun (congrFun h.isHermitian.eq i) j
    simpa using this
  refine ⟨h.diag_nonneg, hs, ?_⟩
  have hd : 0 ≤ (P.submatrix ![i, j] ![i, j]).det := (h.submatrix ![i, j]).det_nonneg
  rw [Matrix.det_fin_two] at hd
  simp only [Matrix.submatrix_apply, Matrix.cons_val_zero, Matrix.cons_val_one] at hd
  rw [hs] at hd
  linarith

/-- The position block after a prediction over `s`. -/
theorem block (P : Matrix (Fin 4) (Fin 4) ℝ) (q s : ℝ) :
    (cvF s * P * (cvF s)ᵀ + cvQ q s) 0 0 =
      P 0 0 + s * (P 0 2 + P 2 0) + s * s * P 2 2 + q * (s * s * s / 3) ∧
    (cvF s * P * (cvF s)ᵀ + cvQ q s) 0 1 = P 0 1 + s * (P 0 3 + P 2 1) + s * s * P 2 3 ∧
    (cvF s * P * (cvF s)ᵀ + cvQ q s) 1 0 = P 1 0 + s * (P 1 2 + P 3 0) + s * s * P 3 2 ∧
    (cvF s * P * (cvF s)ᵀ + cvQ q s) 1 1 =
      P 1 1 + s * (P 1 3 + P 3 1) + s * s * P 3 3 + q * (s * s * s / 3) := by
  refine ⟨?_, ?_, ?_, ?_⟩ <;>
    simp [cvF, cvQ, Matrix.mul_apply, Fin.sum_univ_four, Matrix.vecMul, dotProduct] <;> ring

theorem sq_mix {l x y : ℝ} (h0 : 0 ≤ l) (h1 : l ≤ 1) :
    ((1 - l) * x + l * y) * ((1 - l) * x + l * y) ≤ (1 - l) * (x * x) + l * (y * y) := by
  nlinarith [mul_nonneg (mul_nonneg h0 (sub_nonneg.2 h1)) (mul_self_nonneg (x - y))]

theorem minor_add {κ ν a b d : ℝ} (hk : 0 ≤ κ) (hn : 0 ≤ ν) (ha : 0 ≤ a) (hd : 0 ≤ d)
    (h : b * b ≤ a * d) : κ * b * (κ * b) ≤ (κ * a + ν) * (κ * d + ν) := by
  have h1 := mul_le_mul_of_nonneg_left h (mul_nonneg hk hk)
  have h2 := mul_nonneg hn (mul_nonneg hk ha)
  have h3 := mul_nonneg hn (mul_nonneg hk hd)
  have h4 := mul_nonneg hn hn
  linarith

/-- In between the norm is at most the greater of those at the ends. -/
theorem norm_between {P : Matrix (Fin 4) (Fin 4) ℝ} (hP : P.PosSemidef) {q s T c : ℝ} (hq : 0 ≤ q)
    (h0 : 0 ≤ s) (h1 : s ≤ T) (hc0 : nsq P ≤ c)
    (hc1 : nsq (cvF T * P * (cvF T)ᵀ + cvQ q T) ≤ c) :
    nsq (cvF s * P * (cvF s)ᵀ + cvQ q s) ≤ c := by
  obtain ⟨a00, a01, a10, a11⟩ := block P q s
  obtain ⟨b00, b01, b10, b11⟩ := block P q T
  have hS : (cvF s * P * (cvF s)ᵀ + cvQ q s).PosSemidef :=
    (Kalman.psd_conj hP (cvF s)).add ((Kalman.C43_cv_noise _ _).1 hq h0)
  obtain ⟨m1, m2, m3⟩ := pd_minor hS 0 1
  have m4 := (pd_minor hS 1 1).1
  obtain ⟨n1, n2, n3⟩ := pd_minor hP 2 3
  have n4 := (pd_minor hP 3 3).1
  have s02 := (pd_minor hP 0 2).2.1
  have s13 := (pd_minor hP 1 3).2.1
  have s03 := (pd_minor hP 0 3).2.1
  have s12 := (pd_minor hP 1 2).2.1
  have s01 := (pd_minor hP 0 1).2.1
  rcases (h0.trans h1).eq_or_lt with hT | hT
  · have : s = 0 := by linarith
    unfold nsq
    rw [a00, a01, a10, a11, this]
    unfold nsq at hc0
    simpa using hc0
  · obtain ⟨l, hl⟩ : ∃ l, l = s / T := ⟨_, rfl⟩
    have hl0 : 0 ≤ l := by rw [hl]; positivity
    have hl1 : l ≤ 1 := by rw [hl, div_le_one hT]; exact h1
    have hs : s = l * T := by rw [hl]; field_simp
    unfold nsq at *
    generalize (cvF s * P * (cvF s)ᵀ + cvQ q s) = A at *
    generalize (cvF T * P * (cvF T)ᵀ + cvQ q T) = B at *
    -- the difference of the chord and the curve
    set κ := l * (1 - l) * (T * T) with hκ
    set ν := q * (l * (1 - l * l) * (T * T * T) / 3) with hν
    have hk0 : 0 ≤ κ := mul_nonneg (mul_nonneg hl0 (sub_nonneg.2 hl1)) (mul_nonneg hT.le hT.le)
    have hn0 : 0 ≤ ν := by
      apply mul_nonneg hq
      have : 0 ≤ 1 - l * l := sub_nonneg.2 (mul_le_one₀ hl1 hl0 hl1)
      positivity
    have e00 : (1 - l) * P 0 0 + l * B 0 0 = A 0 0 + (κ * P 2 2 + ν) := by
      rw [a00, b00, hs, hκ, hν]; ring
    have e01 : (1 - l) * P 0 1 + l * B 0 1 = A 0 1 + κ * P 2 3 := by
      rw [a01, b01, hs, hκ]; ring
    have e10 : (1 - l) * P 1 0 + l * B 1 0 = A 1 0 + κ * P 3 2 := by
      rw [a10, b10, hs, hκ]; ring
    have e11 : (1 - l) * P 1 1 + l * B 1 1 = A 1 1 + (κ * P 3 3 + ν) := by
      rw [a11, b11, hs, hκ, hν]; ring
    have t0 := trace_nonneg (a := A 0 0) (b := A 0 1) (d := A 1 1) (x := κ * P 2 2 + ν)
      (y := κ * P 2 3) (z := κ * P 3 3 + ν) m1 m4 m3 (by positivity) (by positivity)
      (minor_add hk0 hn0 n1 n4 n3)
    have q00 := sq_mix (x := P 0 0) (y := B 0 0) hl0 hl1
    have q01 := sq_mix (x := P 0 1) (y := B 0 1) hl0 hl1
    have q10 := sq_mix (x := P 1 0) (y := B 1 0) hl0 hl1
    have q11 := sq_mix (x := P 1 1) (y := B 1 1) hl0 hl1
    rw [e00] at q00
    rw [e01] at q01
    rw [e10] at q10
    rw [e11] at q11
    have c0 := mul_le_mul_of_nonneg_left hc0 (sub_nonneg.2 hl1)
    have c1 := mul_le_mul_of_nonneg_left hc1 hl0
    rw [m2, n2] at q10
    rw [m2]
    have w0 := mul_self_nonneg (κ * P 2 2 + ν)
    have w1 := mul_self_nonneg (κ * P 2 3)
    have w3 := mul_self_nonneg (κ * P 3 3 + ν)
    generalize κ * P 2 2 + ν = D0 at *
    generalize κ * P 2 3 = D1 at *
    generalize κ * P 3 3 + ν = D3 at *
    linarith

/-! ## Two predictions or one -/

theorem conj_compose (P : Matrix (Fin 4) (Fin 4) ℝ) (q a b : ℝ) :
    cvF b * (cvF a * P * (cvF a)ᵀ + cvQ q a) * (cvF b)ᵀ + cvQ q b =
      cvF (a + b) * P * (cvF (a + b))ᵀ + cvQ q (a + b) := by
  have hF : cvF b * cvF a = cvF (a + b) := by
    ext i j
    fin_cases i <;> fin_cases j <;> simp [cvF, Matrix.mul_apply, Fin.sum_univ_four]
  rw [Matrix.mul_add, Matrix.add_mul, add_assoc, cvQ_compose, ← hF, Matrix.transpose_mul]
  simp only [Matrix.mul_assoc]

/-- Weights and covariances of the components, `gm.hpp:28`, `gaussian.hpp:20-24`. -/
def shape (p : Pdf) : List (ℝ × Matrix (Fin 4) (Fin 4) ℝ) := p.mix.c.map fun g => (g.w, g.x.2)

theorem two_steps {k : Opts} {pS q a b : ℝ} (hpS : 0 ≤ pS) (ha : 0 ≤ a) (hb : 0 ≤ b) {t : Tgt Pdf}
    (hs : (t.pdf.mix.c.map GM.Cmp.w).sum = 1) :
    shape (predictTgt (env k) (cv pS q b) (predictTgt (env k) (cv pS q a) t)).pdf =
      shape (predictTgt (env k) (cv pS q (a + b)) t).pdf ∧
    (predictTgt (env k) (cv pS q b) (predictTgt (env k) (cv pS q a) t)).r =
      (predictTgt (env k) (cv pS q (a + b)) t).r ∧
    (predictTgt (env k) (cv pS q (a + b)) t).r = t.r * pS ^ (a + b) ∧
    (predictTgt (env k) (cv pS q a) t).r = t.r * pS ^ a ∧
    shape (predictTgt (env k) (cv pS q a) t).pdf =
      (shape t.pdf).map fun y => (y.1, cvF a * y.2 * (cvF a)ᵀ + cvQ q a) := by
  obtain ⟨⟨f1, e1⟩, r1⟩ := predict_comps (k := k) (m := cv pS q a) rfl hs
  have hs1 : ((predictTgt (env k) (cv pS q a) t).pdf.mix.c.map GM.Cmp.w).sum = 1 := by
    rw [e1, List.map_map, ← hs]
    rfl
  obtain ⟨⟨f2, e2⟩, r2⟩ := predict_comps (k := k) (m := cv pS q b) rfl hs1
  obtain ⟨⟨f3, e3⟩, r3⟩ := predict_comps (k := k) (m := cv pS q (a + b)) rfl hs
  refine ⟨?_, ?_, r3, r1, ?_⟩
  · unfold shape
    rw [e2, e3, e1]
    simp only [List.map_map]
    apply List.map_congr_left
    intro g _
    simp only [Function.comp]
    rw [conj_compose]
  · rw [r2, r1, r3]
    show t.r * pS ^ a * pS ^ b = t.r * pS ^ (a + b)
    rw [Real.rpow_add_of_nonneg hpS ha hb, mul_assoc]
  · unfold shape
    rw [e1]
    simp only [List.map_map]
    rfl

theorem shape_single {p : Pdf} {w : ℝ} {P : Matrix (Fin 4) (Fin 4) ℝ} (h : shape p = [(w, P)]) :
    ∃ g, p.mix.c = [g] ∧ g.w = w ∧ g.x.2 = P := by
  unfold shape at h
  obtain ⟨g, hg, h1⟩ := List.map_eq_singleton_iff.1 h
  exact ⟨g, hg, congrArg Prod.fst h1, congrArg Prod.snd h1⟩

theorem viable_iff {k : Opts} {prm : Params} {t : Tgt Pdf} :
    viable (env k) prm t = true ↔ prm.rlim ≤ t.r ∧ covNorm t.pdf ≤ prm.covlim := by
  unfold viable
  by_cases h1 : t.r < prm.rlim
  · simp [h1]
  · by_cases h2 : prm.covlim < (env k).covNorm t.pdf
    · simp only [h1, h2, if_true, if_false]
      have h3 : ¬ covNorm t.pdf ≤ prm.covlim := not_le.2 h2
      simp [h3]
    · simp only [h1, h2, if_false]
      have h3 : covNorm t.pdf ≤ prm.covlim := not_lt.1 h2
      simp [h3, not_lt.1 h1]

/-- **C99** After any history, two predictions over `a` and `b` against one over `a + b`, with the
constant-velocity model: a target that is left in both cases has the same number, the same existence
probability, the same weights and the same covariances of its components.  A target of one component
that is left after two predictions is left after one, and conversely if its covariance was within
`cov_lim` before. -/
theorem C99_split {k : Opts} (hk : OptsOk k) {prm : Params} (hB0 : 0 ≤ prm.rBmax)
    (hB1 : prm.rBmax ≤ 1) {calls : List (Call Pdf Rpt)} (hc : ∀ c ∈ calls, SysCall k prm c)
    {fuel : Nat} {s s1 s2 s' : St Pdf} (e : run (env k) prm fuel calls St.empty = some s)
    {pS q a b : ℝ} (hp0 : 0 ≤ pS) (hp1 : pS ≤ 1) (hq : 0 ≤ q) (ha : 0 ≤ a) (hb : 0 ≤ b)
    {o1 o2 o3 : List Nat → List Nat} (ho1 : ∀ l, (o1 l).Perm l) (ho2 : ∀ l, (o2 l).Perm l)
    (ho3 : ∀ l, (o3 l).Perm l) (e1 : predict (env k) prm (cv pS q a) o1 s = some s1)
    (e2 : predict (env k) prm (cv pS q b) o2 s1 = some s2)
    (e' : predict (env k) prm (cv pS q (a + b)) o3 s = some s') (x : Nat) :
    (∀ u u', s2.heap x = some u → s'.heap x = some u' → u.id = u'.id ∧ u.r = u'.r ∧
      u.pdf.mix.c.map (fun g => (g.w, g.x.2)) = u'.pdf.mix.c.map fun g => (g.w, g.x.2)) ∧
    ∀ t g, s.heap x = some t → t.pdf.mix.c = [g] →
      ((s2.heap x).isSome → (s'.heap x).isSome) ∧
      (covNorm t.pdf ≤ prm.covlim → (s'.heap x).isSome → (s2.heap x).isSome) := by
  have hs := run_inv (env_box k) (Inv.empty (env k)) (fun c h => sysCall_ok (hc c h)) e
  obtain ⟨_, p1, hs1, _, q1, _⟩ := predict_spec (env_box k) prm (cv pS q a) ho1 hs.ok
  rw [e1] at p1
  cases p1
  obtain ⟨_, p2, _, _, q2, _⟩ := predict_spec (env_box k) prm (cv pS q b) ho2 hs1
  rw [e2] at p2
  cases p2
  obtain ⟨_, p3, _, _, q3, _⟩ := predict_spec (env_box k) prm (cv pS q (a + b)) ho3 hs.ok
  rw [e'] at p3
  cases p3
  cases ht : s.heap x with
  | none =>
    have n2 : s2.heap x = none := by rw [q2, q1, ht]; rfl
    refine ⟨fun u u' hu => ?_, fun t g h => by cases h⟩
    rw [n2] at hu
    cases hu
  | some t =>
    obtain ⟨⟨hr0, _⟩, _, _, hg, hsum, _⟩ := C66_densities_proper hk hB0 hB1 hc e x t ht
    obtain ⟨w1, w2, w3, w4, w5⟩ := two_steps (k := k) (q := q) hp0 ha hb hsum
    rw [q2, q1, q3, ht]
    simp only [Option.map_some]
    refine ⟨?_, ?_⟩
    · intro u u' hu hu'
      rw [Option.filter_eq_some_iff] at hu hu'
      obtain ⟨hu, _⟩ := hu
      obtain ⟨hu', _⟩ := hu'
      obtain rfl := Option.some.inj hu'
      rw [Option.map_eq_some_iff] at hu
      obtain ⟨v, hv, rfl⟩ := hu
      rw [Option.filter_eq_some_iff] at hv
      obtain rfl := Option.some.inj hv.1
      exact ⟨rfl, w2, w1⟩
    · rintro t' g ht' hg'
      obtain rfl := Option.some.inj ht'
      have hw : g.w = 1 := by rw [hg'] at hsum; simpa using hsum
      have hP := (hg g (by rw [hg']; exact List.mem_cons_self)).2.posSemidef
      have hsh : shape t.pdf = [(1, g.x.2)] := by unfold shape; rw [hg', List.map_singleton, hw]
      rw [hsh, List.map_singleton] at w5
      obtain ⟨g1, c1, d1, f1⟩ := shape_single w5
      have w6 := (two_steps (k := k) (q := q) hp0 (add_nonneg ha hb) le_rfl hsum).2.2.2.2
      rw [hsh, List.map_singleton] at w6
      obtain ⟨g3, c3, d3, f3⟩ := shape_single w6
      rw [w6] at w1
      obtain ⟨g2, c2, d2, f2⟩ := shape_single w1
      have v1 := single_le c1 d1 prm.covlim
      have v2 := single_le c2 d2 prm.covlim
      have v3 := single_le c3 d3 prm.covlim
      have hmono : t.r * pS ^ (a + b) ≤ t.r * pS ^ a := by
        apply mul_le_mul_of_nonneg_left _ hr0
        rw [Real.rpow_add_of_nonneg hp0 ha hb]
        exact mul_le_of_le_one_right (Real.rpow_nonneg hp0 a) (Real.rpow_le_one hp0 hp1 hb)
      constructor
      · intro h
        obtain ⟨u, hu⟩ := Option.isSome_iff_exists.1 h
        rw [Option.filter_eq_some_iff] at hu
        obtain ⟨hu, hv⟩ := hu
        rw [Option.map_eq_some_iff] at hu
        obtain ⟨v, hv', rfl⟩ := hu
        rw [Option.filter_eq_some_iff] at hv'
        obtain rfl := Option.some.inj hv'.1
        rw [viable_iff, v2, w2, f2] at hv
        have : viable (env k) prm (predictTgt (env k) (cv pS q (a + b)) t) = true := by
          rw [viable_iff, v3, f3]
          exact hv
        rw [Option.filter_some, if_pos this]
        rfl
      · intro h0 h
        obtain ⟨u, hu⟩ := Option.isSome_iff_exists.1 h
        rw [Option.filter_eq_some_iff] at hu
        obtain ⟨hu, hv⟩ := hu
        obtain rfl := Option.some.inj hu
        rw [viable_iff, v3, f3] at hv
        rw [single_le hg' hw] at h0
        have t1 : viable (env k) prm (predictTgt (env k) (cv pS q a) t) = true := by
          rw [viable_iff, v1, f1, w4]
          rw [w3] at hv
          exact ⟨hv.1.trans hmono, h0.1, norm_between hP hq ha (by linarith) h0.2 hv.2.2⟩
        have t2 : viable (env k) prm (predictTgt (env k) (cv pS q b)
            (predictTgt (env k) (cv pS q a) t)) = true := by
          rw [viable_iff, v2, w2, f2]
          exact hv
        rw [Option.filter_some, if_pos t1, Option.map_some, Option.filter_some, if_pos t2]
        rfl

/-! ## The position -/

/-- A target on the equator, at longitude `l`, moving east at `v` metres per second (an
example, not code). -/
noncomputable def exMove (l v : ℝ) : Tgt Pdf :=
  ⟨0, 1, ⟨⟨[⟨(![0, l, 0, v], 1), 1⟩], 1⟩, 0, Box.zero⟩, 0, 'b'⟩

/-- A point `e` metres east of a point of the equator. -/
theorem ne2ll_east {e l : ℝ} (h0 : 0 ≤ l) (h1 : l < 90) :
    CF.ne2ll ![0, e] ![0, l] = ![0, l + Real.arctan (e / CF.ea) * 180 / Real.pi] := by
  have hea : (0 : ℝ) < CF.ea := by unfold CF.ea; norm_num
  have hpi := Real.pi_pos
  have hs : CF.sind 0 = 0 := by unfold CF.sind; simp
  have hc : CF.cosd 0 = 1 := by unfold CF.cosd; simp
  set φ := Real.arctan (e / CF.ea) with hφ
  set t := l * Real.pi / 180 + φ with ht
  obtain ⟨R, hR⟩ : ∃ R, R = CF.ea / Real.cos φ := ⟨_, rfl⟩
  have hcos : 0 < Real.cos φ := Real.cos_arctan_pos _
  have hR0 : 0 < R := by rw [hR]; positivity
  have hRc : R * Real.cos φ = CF.ea := by rw [hR]; field_simp
  have hRs : R * Real.sin φ = e := by
    have : Real.tan φ = e / CF.ea := Real.tan_arctan _
    rw [Real.tan_eq_sin_div_cos] at this
    rw [hR]
    field_simp at this ⊢
    linarith
  have hφ1 := Real.arctan_lt_pi_div_two (e / CF.ea)
  have hφ2 := Real.neg_pi_div_two_lt_arctan (e / CF.ea)
  rw [← hφ] at hφ1 hφ2
  have hl1 : l * Real.pi / 180 < Real.pi / 2 := by nlinarith
  have hl0 : 0 ≤ l * Real.pi / 180 := by positivity
  have hsum : CF.ll2ecef ![0, l] + (CF.nedrot ((![0, l] : Fin 2 → ℝ) 0)
      ((![0, l] : Fin 2 → ℝ) 1))ᵀ *ᵥ ![(![0, e] : Fin 2 → ℝ) 0, (![0, e] : Fin 2 → ℝ) 1, 0] =
      ![R * Real.cos t, R * Real.sin t, 0] := by
    rw [CF.ll2ecef_equator, ht, Real.cos_add, Real.sin_add]
    have d1 : Real.cos (l * Real.pi / 180) = CF.cosd l := rfl
    have d2 : Real.sin (l * Real.pi / 180) = CF.sind l := rfl
    ext i
    fin_cases i
    · simp [CF.nedrot, hs, hc, Matrix.mulVec, dotProduct, Fin.sum_univ_three, d1, d2]
      linear_combination (-CF.cosd l) * hRc + CF.sind l * hRs
    · simp [CF.nedrot, hs, hc, Matrix.mulVec, dotProduct, Fin.sum_univ_three, d1, d2]
      linear_combination (-CF.sind l) * hRc - CF.cosd l * hRs
    · simp [CF.nedrot, hs, hc, Matrix.mulVec, dotProduct, Fin.sum_univ_three]
  have key : ∀ r : ℝ, 0 < r → CF.ecef2ll ![r * Real.cos t, r * Real.sin t, 0] =
      ![0, t * 180 / Real.pi] := by
    intro r hr
    have hat : CF.atan2 (r * Real.sin t) (r * Real.cos t) = t :=
      CF.atan2_polar hr (by linarith) (by linarith)
    ext i
    fin_cases i
    · refine CF.equator_lat _ rfl ?_
      show 0 < r * Real.cos t * (r * Real.cos t) + r * Real.sin t * (r * Real.sin t)
      have := Real.sin_sq_add_cos_sq t
      have : r * Real.cos t * (r * Real.cos t) + r * Real.sin t * (r * Real.sin t) = r * r := by
        linear_combination r * r * this
      rw [this]
      positivity
    · show CF.atan2 (r * Real.sin t) (r * Real.cos t) * 180 / Real.pi = _
      rw [hat]
      rfl
  unfold CF.ne2ll CF.ne2ecef
  rw [hsum, key R hR0, CF.ll2ecef_equator]
  have d3 : CF.cosd (t * 180 / Real.pi) = Real.cos t := by
    unfold CF.cosd
    congr 1
    field_simp
  have d4 : CF.sind (t * 180 / Real.pi) = Real.sin t := by
    unfold CF.sind
    congr 1
    field_simp
  rw [d3, d4, key _ hea]
  ext i
  fin_cases i
  · rfl
  · show t * 180 / Real.pi = l + φ * 180 / Real.pi
    rw [ht]
    field_simp

/-- One prediction of a target moving along the equator. -/
theorem move_predict (k : Opts) {l v pS q dT : ℝ} (h0 : 0 ≤ l) (h1 : l < 90) {t : Tgt Pdf}
    {P : Matrix (Fin 4) (Fin 4) ℝ} (ht : t.pdf.mix.c = [⟨(![0, l, 0, v], P), 1⟩]) :
    (predictTgt (env k) (cv pS q dT) t).pdf.mix.c =
      [⟨(![0, l + Real.arctan (v * dT / CF.ea) * 180 / Real.pi, 0, v],
        cvF dT * P * (cvF dT)ᵀ + cvQ q dT), 1⟩] := by
  have hpos : pos t.pdf = ![0, l] := by
    unfold pos
    rw [Kalman.mean_eq, ht]
    ext i
    fin_cases i <;> simp [toG, head]
  have hz : CF.ll2ne ![0, l] ![0, l] = 0 := (CF.C49_ne ![0, l] ![0, l] ![0, l]).2.1
  have hh : head ![0, l, 0, v] = ![0, l] := rfl
  have hF : cvF dT *ᵥ ![0, 0, 0, v] = ![0, v * dT, 0, v] := by
    ext i
    fin_cases i <;> simp [cvF, Matrix.mulVec, dotProduct, Fin.sum_univ_four, mul_comm]
  have h1' : ((cv pS q dT).pdf (toLocal ![0, l] t.pdf)).mix.c =
      [⟨(![0, v * dT, 0, v], cvF dT * P * (cvF dT)ᵀ + cvQ q dT), 1⟩] := by
    show (cLocal ![0, l] t.pdf.mix.c).map (fun g => ofG (linearUpdate (cvF dT) (cvQ q dT)
      (toG g))) = _
    rw [ht]
    simp only [cLocal, List.map_cons, List.map_nil, hh, hz, toG, linearUpdate, ofG]
    have : setHead 0 ![0, l, 0, v] = ![0, 0, 0, v] := by
      ext i
      fin_cases i <;> rfl
    rw [this, hF]
  set p := (cv pS q dT).pdf (toLocal ![0, l] t.pdf) with hp
  have hsum : (p.mix.c.map GM.Cmp.w).sum = 1 := by rw [h1']; norm_num
  have hb : 1 / 100000000 < (p.mix.c.map GM.Cmp.w).sum := by rw [hsum]; norm_num
  have hc : (GM.normalize p.mix).c = p.mix.c := by
    rw [GM.normalize_c _ hb, hsum, h1']
    simp
  show cGlobal (pos t.pdf) (GM.normalize ((cv pS q dT).pdf (toLocal (pos t.pdf) t.pdf)).mix).c = _
  rw [hpos, ← hp, hc, h1']
  have h2 : head ![0, v * dT, 0, v] = ![0, v * dT] := rfl
  simp only [cGlobal, List.map_cons, List.map_nil, h2]
  rw [ne2ll_east h0 h1]
  rfl

theorem arctan_sub {x y : ℝ} (hx : 0 < x) (hy : 0 < y) :
    Real.arctan (x + y) < Real.arctan x + Real.arctan y := by
  by_cases h : x * y < 1
  · rw [Real.arctan_add h]
    apply Real.arctan_strictMono
    rw [lt_div_iff₀ (by linarith)]
    nlinarith [mul_pos hx hy]
  · have h1 : Real.arctan x⁻¹ ≤ Real.arctan y := by
      apply Real.arctan_strictMono.monotone
      rw [inv_le_iff_one_le_mul₀ hx]
      nlinarith
    rw [Real.arctan_inv_of_pos hx] at h1
    have := Real.arctan_lt_pi_div_two (x + y)
    linarith

/-- **C99 refuted for the position** A target moving east along the equator is further east after two
predictions than after one over the same time, whatever the steps and its speed: every prediction
walks along a tangent of the earth. -/
theorem C99_position_refuted (k : Opts) {v pS q a b : ℝ} (hv : 0 < v) (ha : 0 < a) (hb : 0 < b) :
    pos (predictTgt (env k) (cv pS q (a + b)) (exMove 0 v)).pdf 1 <
      pos (predictTgt (env k) (cv pS q b) (predictTgt (env k) (cv pS q a) (exMove 0 v))).pdf 1 := by
  have hea : (0 : ℝ) < CF.ea := by unfold CF.ea; norm_num
  have hpi := Real.pi_pos
  have hpos : ∀ (t : Tgt Pdf) (l : ℝ) (P : Matrix (Fin 4) (Fin 4) ℝ),
      t.pdf.mix.c = [⟨(![0, l, 0, v], P), 1⟩] → pos t.pdf 1 = l := by
    intro t l P h
    unfold pos
    rw [Kalman.mean_eq, h]
    simp [toG, head]
  have m1 := move_predict k (pS := pS) (q := q) (dT := a) le_rfl (by norm_num)
    (t := exMove 0 v) (l := 0) (v := v) (P := 1) rfl
  have m3 := move_predict k (pS := pS) (q := q) (dT := a + b) le_rfl (by norm_num)
    (t := exMove 0 v) (l := 0) (v := v) (P := 1) rfl
  have hx : 0 < v * a / CF.ea := by positivity
  have hy : 0 < v * b / CF.ea := by positivity
  have hl : 0 < Real.arctan (v * a / CF.ea) := Real.arctan_pos.2 hx
  have hu := Real.arctan_lt_pi_div_two (v * a / CF.ea)
  have m2 := move_predict k (pS := pS) (q := q) (dT := b) (by positivity)
    (by rw [zero_add, div_lt_iff₀ hpi]; linarith) m1
  rw [hpos _ _ _ m2, hpos _ _ _ m3, zero_add, zero_add, ← add_div, ← add_mul]
  rw [show v * (a + b) / CF.ea = v * a / CF.ea + v * b / CF.ea from by ring]
  gcongr
  exact arctan_sub hx hy

/-- A ship at 10 m/s, for an hour and another. -/
example := C99_position_refuted exOpts (v := 10) (pS := 1) (q := 1) (a := 3600) (b := 3600)
  (by norm_num) (by norm_num) (by norm_num)

/-- **C99 refuted for `NM`** With the model `NM` it matters in how many steps a time is predicted: it
ignores the time, so the existence probability is lower and every component wider after two
predictions than after one. -/
theorem C99_nm_refuted (k : Opts) {pS : ℝ} (hp0 : 0 < pS) (hp1 : pS < 1)
    {Q : Matrix (Fin 4) (Fin 4) ℝ} {t : Tgt Pdf} (hr : 0 < t.r)
    (hs : (t.pdf.mix.c.map GM.Cmp.w).sum = 1) :
    (predictTgt (env k) (nm pS Q) (predictTgt (env k) (nm pS Q) t)).r <
      (predictTgt (env k) (nm pS Q) t).r ∧
    (predictTgt (env k) (nm pS Q) (predictTgt (env k) (nm pS Q) t)).pdf.mix.c.map (fun g => g.x.2) =
      (predictTgt (env k) (nm pS Q) t).pdf.mix.c.map fun g => g.x.2 + Q := by
  obtain ⟨⟨f1, e1⟩, r1⟩ := predict_comps (k := k) (m := nm pS Q) rfl hs
  have hs1 : ((predictTgt (env k) (nm pS Q) t).pdf.mix.c.map GM.Cmp.w).sum = 1 := by
    rw [e1, List.map_map, ← hs]
    rfl
  obtain ⟨⟨f2, e2⟩, r2⟩ := predict_comps (k := k) (m := nm pS Q) rfl hs1
  constructor
  · rw [r2, r1]
    show t.r * pS * pS < t.r * pS
    nlinarith [mul_pos hr hp0]
  · rw [e2, List.map_map]
    apply List.map_congr_left
    intro g _
    simp

example := C99_nm_refuted exOpts (pS := 9 / 10) (by norm_num) (by norm_num) (Q := 1)
  (t := exMove 0 10) one_pos (by simp [exMove])

/-- The target that the first scan of the history leaves, predicted for three seconds. -/
example : ∃ s s1 s2 s' x t, run (env exOpts) exPrm 0 (exHist.take 1) St.empty = some s ∧
    s.heap x = some t ∧ predict (env exOpts) exPrm (cv (9 / 10) 1 1) id s = some s1 ∧
    predict (env exOpts) exPrm (cv (9 / 10) 1 2) id s1 = some s2 ∧
    predict (env exOpts) exPrm (cv (9 / 10) 1 (1 + 2)) id s = some s' ∧
    ((s2.heap x).isSome ↔ (s'.heap x).isSome) := by
  obtain ⟨s, x, t, g, h1, h2, _, h3, _, h5⟩ := exNewborn
  have hc : ∀ c ∈ exHist.take 1, SysCall exOpts exPrm c := fun c h =>
    exHist_ok c (List.mem_of_mem_take h)
  have hm : ∀ dT : ℝ, 0 ≤ dT → SysCall exOpts exPrm (.predict (cv (9 / 10) 1 dT) id) := fun dT h =>
    ⟨fun l => List.Perm.refl l, Or.inl ⟨9 / 10, 1, dT, by norm_num, by norm_num, by norm_num, h, rfl⟩⟩
  obtain ⟨s1, e1, _⟩ := C28_predict (env_box exOpts) exPrm 0 _ (fun c h => sysCall_ok (hc c h)) s h1
    (cv (9 / 10) 1 1) (ord := id) fun l => List.Perm.refl l
  have hrun : run (env exOpts) exPrm 0 (exHist.take 1 ++ [.predict (cv (9 / 10) 1 1) id]) St.empty =
      some s1 := by
    rw [run_append, h1, Option.bind_some]
    simp only [run, step, e1]
  obtain ⟨s2, e2, _⟩ := C28_predict (env_box exOpts) exPrm 0 _ (by
    intro c h
    rcases List.mem_append.1 h with h | h
    · exact sysCall_ok (hc c h)
    · rw [List.mem_singleton.1 h]; exact sysCall_ok (hm 1 (by norm_num))) s1 hrun
    (cv (9 / 10) 1 2) (ord := id) fun l => List.Perm.refl l
  obtain ⟨s', e', _⟩ := C28_predict (env_box exOpts) exPrm 0 _ (fun c h => sysCall_ok (hc c h)) s h1
    (cv (9 / 10) 1 (1 + 2)) (ord := id) fun l => List.Perm.refl l
  have := (C99_split exOpts_ok (prm := exPrm) (by show (0 : ℝ) ≤ 4 / 5; norm_num)
    (by show (4 : ℝ) / 5 ≤ 1; norm_num) hc h1 (by norm_num) (by norm_num) (by norm_num) (by norm_num)
    (by norm_num) (fun l => List.Perm.refl l) (fun l => List.Perm.refl l) (fun l => List.Perm.refl l)
    e1 e2 e' x).2 t g h2 h3
  exact ⟨s, s1, s2, s', x, t, h1, h2, e1, e2, e', this.1, this.2 h5⟩

end Verif.System
