import Verif.Particles.Moments

/-! # Particles read from a log, `clmb.py:42-58` (C93) -/

namespace Verif.Particles

open Matrix

/-- `PF.mean`, `clmb.py:50-52`: the products `w * x`, added along each row. -/
def pyMean (c : List Part) : X := fun i => (c.map fun g => g.w * g.x i).sum

/-- `PF.cov`, `clmb.py:54-58`; `none` is a division by zero, which gives `nan`. -/
noncomputable def pyCov (c : List Part) : Option (Matrix (Fin 4) (Fin 4) ℝ) :=
  let m := pyMean c
  let d := 1 - (c.map fun g => g.w * g.w).sum
  if d = 0 then none
  else some fun i j => (c.map fun g => g.w * (g.x i - m i) * (g.x j - m j)).sum / d

/-- **C93, mean** The mean drawn is the mean the tracker has. -/
theorem C93_mean (c : List Part) : pyMean c = mean c := by
  unfold pyMean mean
  induction c with
  | nil => rfl
  | cons g l ih =>
    rw [List.map_cons, List.sum_cons, ← ih]
    ext i
    simp

theorem pyCov_eq (c : List Part) (h : 1 - (c.map fun g => g.w * g.w).sum ≠ 0) :
    pyCov c = some ((1 / (1 - (c.map fun g => g.w * g.w).sum)) • cov c) := by
  unfold pyCov
  simp only [if_neg h]
  congr 1
  ext i j
  rw [Matrix.smul_apply, smul_eq_mul, C93_mean]
  unfold cov covAt
  rw [one_div, mul_comm, div_eq_mul_inv]
  congr 3
  ext g
  ring

/-- The sum of the squares of weights: at most one, and one only if all the weight is on one. -/
theorem sq_sum (c : List Part) (h0 : ∀ g ∈ c, 0 ≤ g.w) :
    (c.map fun g => g.w * g.w).sum ≤ (c.map GM.Cmp.w).sum * (c.map GM.Cmp.w).sum ∧
    0 ≤ (c.map GM.Cmp.w).sum := by
  induction c with
  | nil => simp
  | cons g l ih =>
    obtain ⟨h1, h2⟩ := ih fun g' h => h0 g' (List.mem_cons_of_mem _ h)
    have hg := h0 g List.mem_cons_self
    simp only [List.map_cons, List.sum_cons]
    exact ⟨by nlinarith [mul_nonneg hg h2], by linarith⟩

theorem sq_lt (c : List Part) (h0 : ∀ g ∈ c, 0 ≤ g.w) (h1 : (c.map GM.Cmp.w).sum = 1)
    (h2 : ∀ g ∈ c, g.w ≠ 1) : 0 < 1 - (c.map fun g => g.w * g.w).sum := by
  have key : ∀ l : List Part, (∀ g ∈ l, 0 ≤ g.w ∧ g.w < 1) →
      (l.map fun g => g.w * g.w).sum ≤ (l.map GM.Cmp.w).sum ∧
      (0 < (l.map GM.Cmp.w).sum → (l.map fun g => g.w * g.w).sum < (l.map GM.Cmp.w).sum) := by
    intro l
    induction l with
    | nil => intro _; simp
    | cons g l ih =>
      intro h
      obtain ⟨i1, i2⟩ := ih fun g' h' => h g' (List.mem_cons_of_mem _ h')
      obtain ⟨g0, g1⟩ := h g List.mem_cons_self
      simp only [List.map_cons, List.sum_cons]
      have hs : 0 ≤ (l.map GM.Cmp.w).sum :=
        (sq_sum l fun g' h' => (h g' (List.mem_cons_of_mem _ h')).1).2
      refine ⟨by nlinarith, fun hp => ?_⟩
      rcases g0.lt_or_eq with hg | hg
      · nlinarith
      · rw [← hg] at hp ⊢
        have := i2 (by linarith)
        linarith
  have hle : ∀ g ∈ c, g.w ≤ 1 := by
    intro g hg
    rw [← h1]
    have : ∀ l : List Part, (∀ g ∈ l, 0 ≤ g.w) → g ∈ l → g.w ≤ (l.map GM.Cmp.w).sum := by
      intro l
      induction l with
      | nil => intro _ h; simp at h
      | cons b l ih =>
        intro h hm
        simp only [List.map_cons, List.sum_cons]
        have hb := h b List.mem_cons_self
        have hs := (sq_sum l fun g' h' => h g' (List.mem_cons_of_mem _ h')).2
        rcases List.mem_cons.1 hm with rfl | hm
        · linarith
        · linarith [ih (fun g' h' => h g' (List.mem_cons_of_mem _ h')) hm]
    exact this c h0 hg
  have := (key c fun g hg => ⟨h0 g hg, lt_of_le_of_ne (hle g hg) (h2 g hg)⟩).2 (by rw [h1]; norm_num)
  rw [h1] at this
  linarith

/-- **C93, covariance** If the weights add up to one and no particle has all the weight, the reader
gives the covariance of the tracker multiplied by a number that is at least one: it is a covariance
matrix. -/
theorem C93_cov (c : List Part) (h0 : ∀ g ∈ c, 0 ≤ g.w) (h1 : (c.map GM.Cmp.w).sum = 1)
    (h2 : ∀ g ∈ c, g.w ≠ 1) : ∃ (f : ℝ) (P : Matrix (Fin 4) (Fin 4) ℝ), 1 ≤ f ∧
      pyCov c = some P ∧ P = f • cov c ∧ P.PosSemidef := by
  have hd := sq_lt c h0 h1 h2
  refine ⟨_, _, ?_, pyCov_eq c hd.ne', rfl, ?_⟩
  · rw [le_div_iff₀ hd]
    have : 0 ≤ (c.map fun g => g.w * g.w).sum := by
      apply List.sum_nonneg
      intro x hx
      obtain ⟨g, _, rfl⟩ := List.mem_map.1 hx
      exact mul_self_nonneg _
    linarith
  · refine Matrix.PosSemidef.smul ?_ (by positivity)
    exact (C91_moments ⟨⟨c, 0, false⟩, 0, wide, plane⟩ 1 1).1 h0

/-- **C93, equal weights** After resampling, when the weights are equal, the reader gives `N/(N-1)`
times the covariance of the tracker. -/
theorem C93_equal (c : List Part) (hN : 2 ≤ c.length) (hw : ∀ g ∈ c, g.w = 1 / (c.length : ℝ)) :
    pyCov c = some (((c.length : ℝ) / (c.length - 1)) • cov c) := by
  have hn : (2 : ℝ) ≤ c.length := by exact_mod_cast hN
  have hs : (c.map fun g => g.w * g.w).sum = 1 / (c.length : ℝ) := by
    rw [List.map_congr_left (g := fun _ => 1 / (c.length : ℝ) * (1 / (c.length : ℝ)))
      fun g hg => by rw [hw g hg], List.map_const', List.sum_replicate, nsmul_eq_mul]
    field_simp
  have hd : 1 - (c.map fun g => g.w * g.w).sum = ((c.length : ℝ) - 1) / c.length := by
    rw [hs]
    field_simp
  rw [pyCov_eq c (by rw [hd]; exact (div_pos (by linarith) (by linarith)).ne'), hd, one_div_div]

/-- **C93 refuted** The covariance drawn is never the covariance the tracker has, unless the latter is
zero. -/
theorem C93_cov_refuted (c : List Part) (h0 : ∀ g ∈ c, 0 < g.w)
    (h1 : (c.map GM.Cmp.w).sum = 1) (hc : cov c ≠ 0) : pyCov c ≠ some (cov c) := by
  intro h
  have hne : c ≠ [] := by rintro rfl; simp at h1
  by_cases hd : 1 - (c.map fun g => g.w * g.w).sum = 0
  · unfold pyCov at h
    simp only [if_pos hd] at h
    exact absurd h (by simp)
  · rw [pyCov_eq c hd, Option.some.injEq] at h
    obtain ⟨i, j, hij⟩ : ∃ i j, cov c i j ≠ 0 := by
      by_contra hcon
      push Not at hcon
      exact hc (by ext i j; exact hcon i j)
    have h2 := congrFun (congrFun h i) j
    rw [Matrix.smul_apply, smul_eq_mul] at h2
    have h3 : 1 / (1 - (c.map fun g => g.w * g.w).sum) = 1 := mul_right_cancel₀ hij (by rw [h2, one_mul])
    rw [div_eq_one_iff_eq hd] at h3
    have h4 : 0 < (c.map fun g => g.w * g.w).sum := by
      apply List.sum_pos
      · intro x hx
        obtain ⟨g, hg, rfl⟩ := List.mem_map.1 hx
        exact mul_pos (h0 g hg) (h0 g hg)
      · simpa using hne
    linarith

/-- **C93, two particles** The reader gives half the product of the differences, whatever the weights
are; the covariance of the tracker goes to zero with one of the weights.  With all the weight on one
particle the reader divides by zero, and the covariance of the tracker is zero. -/
theorem C93_two (x y : X) (a : ℝ) :
    (0 < a → a < 1 → pyCov [⟨x, 1 - a⟩, ⟨y, a⟩] =
      some fun i j => (x i - y i) * (x j - y j) / 2) ∧
    (∀ i j, cov [⟨x, 1 - a⟩, ⟨y, a⟩] i j = a * (1 - a) * ((x i - y i) * (x j - y j))) ∧
    pyCov [⟨x, 1⟩, ⟨y, 0⟩] = none ∧ cov [⟨x, 1⟩, ⟨y, 0⟩] = 0 := by
  have hcov : ∀ a : ℝ, ∀ i j, cov [⟨x, 1 - a⟩, ⟨y, a⟩] i j =
      a * (1 - a) * ((x i - y i) * (x j - y j)) := by
    intro a i j
    simp only [cov, covAt, mean, List.map_cons, List.map_nil, List.sum_cons, List.sum_nil,
      Pi.add_apply, Pi.smul_apply, smul_eq_mul, Pi.zero_apply]
    ring
  refine ⟨fun h0 h1 => ?_, hcov a, ?_, ?_⟩
  · have hd : 1 - (([⟨x, 1 - a⟩, ⟨y, a⟩] : List Part).map fun g => g.w * g.w).sum =
        2 * (a * (1 - a)) := by
      simp only [List.map_cons, List.map_nil, List.sum_cons, List.sum_nil]
      ring
    have hp : 0 < a * (1 - a) := mul_pos h0 (by linarith)
    rw [pyCov_eq _ (by rw [hd]; positivity), hd]
    congr 1
    ext i j
    have ha : 1 - a ≠ 0 := (sub_pos.2 h1).ne'
    rw [Matrix.smul_apply, smul_eq_mul, hcov]
    field_simp
  · unfold pyCov
    simp
  · have := hcov 0
    ext i j
    have h2 := this i j
    simpa using h2

/-- Three particles of different weight. -/
noncomputable def exThree : List Part :=
  [⟨![0, 0, 1, 0], 1 / 2⟩, ⟨![1, 0, 1, 0], 1 / 3⟩, ⟨![0, 1, 0, 0], 1 / 6⟩]

example : pyMean exThree = ![1 / 3, 1 / 6, 5 / 6, 0] := by
  ext i
  fin_cases i <;> simp [pyMean, exThree] <;> norm_num

theorem exThree_pos : ∀ g ∈ exThree, 0 < g.w := by
  intro g hg
  simp only [exThree, List.mem_cons, List.not_mem_nil, or_false] at hg
  rcases hg with rfl | rfl | rfl <;> norm_num

theorem exThree_sum : (exThree.map GM.Cmp.w).sum = 1 := by
  simp [exThree]
  norm_num

example := C93_cov exThree (fun g hg => (exThree_pos g hg).le) exThree_sum (by
  intro g hg
  simp only [exThree, List.mem_cons, List.not_mem_nil, or_false] at hg
  rcases hg with rfl | rfl | rfl <;> norm_num)
example := C93_cov_refuted exThree exThree_pos exThree_sum (by
  intro h
  have := congrFun (congrFun h 0) 0
  simp [cov, covAt, mean, exThree] at this
  norm_num at this)
example := C93_equal [⟨![0, 0, 1, 0], 1 / 2⟩, ⟨![1, 0, 1, 0], 1 / 2⟩] (by simp) (by simp)
example := (C93_two ![0, 0, 1, 0] ![1, 0, 1, 0] (1 / 1000)).1 (by norm_num) (by norm_num)

end Verif.Particles
