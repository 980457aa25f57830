import Verif.Kalman.Props
import Mathlib.Analysis.SpecificLimits.Basic

/-!
# C110, C111, C112: what a component knows after a history of predictions and reports

The updates of one component with several reports commute.  However uncertain the start was, the last two
reports bound the covariance.  The error of a component is bounded by the errors of the reports and by
the manoeuvres of the object, and old errors are forgotten.
-/

namespace Verif.Kalman

open Matrix

variable {n m : Nat}

/-! ## C110: the order of reports -/

/-- The mean after the update, in information form. -/
theorem correct_info_mean (H : Matrix (Fin m) (Fin n) ℝ) (z : Report m) (g : Gauss n)
    (hR : z.P.PosDef) (hP : g.P.PosDef) (pD : ℝ) :
    (correct H pD z g).P⁻¹ *ᵥ (correct H pD z g).x = g.P⁻¹ *ᵥ g.x + Hᵀ *ᵥ (z.P⁻¹ *ᵥ z.x) := by
  rw [correct_inv H z g hR hP pD]
  change _ *ᵥ (g.x + gain H z g *ᵥ innov H z g) = _
  rw [mulVec_add, mulVec_mulVec, info_gain H z g hR hP, add_mulVec]
  unfold innov
  rw [mulVec_sub, mulVec_mulVec, mulVec_mulVec]
  abel

theorem density_pos {k : Nat} (μ : Fin k → ℝ) {S : Matrix (Fin k) (Fin k) ℝ} (hS : S.PosDef)
    (x : Fin k → ℝ) : 0 < density μ S x := by
  have := hS.det_pos
  unfold density
  have := Real.pi_pos
  positivity

/-- What a sensor says about a component: the observation matrix, the detection probability of the
component and the report. -/
structure Seen (n : Nat) where
  m : Nat
  H : Matrix (Fin m) (Fin n) ℝ
  pD : ℝ
  z : Report m

/-- The update with one report, `gaussian.hpp:30-42`. -/
noncomputable def fuse (g : Gauss n) (o : Seen n) : Gauss n := correct o.H o.pD o.z g

theorem fuse_posDef {g : Gauss n} {o : Seen n} (hP : g.P.PosDef) (hR : o.z.P.PosDef) :
    (fuse g o).P.PosDef := correct_posDef o.H o.z g hR hP o.pD

theorem fuse_comm {g : Gauss n} {a b : Seen n} (hP : g.P.PosDef) (ha : a.z.P.PosDef)
    (hb : b.z.P.PosDef) : fuse (fuse g a) b = fuse (fuse g b) a := by
  have pa := fuse_posDef hP ha
  have pb := fuse_posDef hP hb
  have pab := fuse_posDef pa hb
  have pba := fuse_posDef pb ha
  have iab : (fuse (fuse g a) b).P⁻¹ = (fuse (fuse g b) a).P⁻¹ := by
    have e1 := correct_inv b.H b.z (fuse g a) hb pa b.pD
    have e2 := correct_inv a.H a.z (fuse g b) ha pb a.pD
    have e3 := correct_inv a.H a.z g ha hP a.pD
    have e4 := correct_inv b.H b.z g hb hP b.pD
    change (fuse (fuse g a) b).P⁻¹ = (fuse g a).P⁻¹ + _ at e1
    change (fuse (fuse g b) a).P⁻¹ = (fuse g b).P⁻¹ + _ at e2
    change (fuse g a).P⁻¹ = _ at e3
    change (fuse g b).P⁻¹ = _ at e4
    rw [e1, e2, e3, e4]
    abel
  have hPe : (fuse (fuse g a) b).P = (fuse (fuse g b) a).P := by
    rw [← Matrix.nonsing_inv_nonsing_inv (fuse (fuse g a) b).P
        ((Matrix.isUnit_iff_isUnit_det _).1 pab.isUnit), iab,
      Matrix.nonsing_inv_nonsing_inv _ ((Matrix.isUnit_iff_isUnit_det _).1 pba.isUnit)]
  have hxe : (fuse (fuse g a) b).x = (fuse (fuse g b) a).x := by
    have e1 := correct_info_mean b.H b.z (fuse g a) hb pa b.pD
    have e2 := correct_info_mean a.H a.z (fuse g b) ha pb a.pD
    have e3 := correct_info_mean a.H a.z g ha hP a.pD
    have e4 := correct_info_mean b.H b.z g hb hP b.pD
    change (fuse (fuse g a) b).P⁻¹ *ᵥ (fuse (fuse g a) b).x = (fuse g a).P⁻¹ *ᵥ (fuse g a).x + _ at e1
    change (fuse (fuse g b) a).P⁻¹ *ᵥ (fuse (fuse g b) a).x = (fuse g b).P⁻¹ *ᵥ (fuse g b).x + _ at e2
    change (fuse g a).P⁻¹ *ᵥ (fuse g a).x = _ at e3
    change (fuse g b).P⁻¹ *ᵥ (fuse g b).x = _ at e4
    have h : (fuse (fuse g a) b).P⁻¹ *ᵥ (fuse (fuse g a) b).x =
        (fuse (fuse g a) b).P⁻¹ *ᵥ (fuse (fuse g b) a).x := by
      rw [e1, iab, e2, e3, e4]
      abel
    have := congrArg ((fuse (fuse g a) b).P *ᵥ ·) h
    simpa only [mulVec_mulVec, posDef_mul_inv pab, one_mulVec] using this
  have hwe : (fuse (fuse g a) b).w = (fuse (fuse g b) a).w := by
    have e1 := C59_bayes b.H b.z (fuse g a) hb pa b.pD 0
    have e2 := C59_bayes a.H a.z (fuse g b) ha pb a.pD 0
    have e3 := C59_bayes a.H a.z g ha hP a.pD 0
    have e4 := C59_bayes b.H b.z g hb hP b.pD 0
    change _ = (fuse (fuse g a) b).w * density (fuse (fuse g a) b).x (fuse (fuse g a) b).P 0 at e1
    change _ = (fuse (fuse g b) a).w * density (fuse (fuse g b) a).x (fuse (fuse g b) a).P 0 at e2
    change _ = (fuse g a).w * density (fuse g a).x (fuse g a).P 0 at e3
    change _ = (fuse g b).w * density (fuse g b).x (fuse g b).P 0 at e4
    rw [← e3] at e1
    rw [← e4] at e2
    have hd := density_pos (fuse (fuse g b) a).x pba 0
    rw [hPe, hxe] at e1
    refine mul_right_cancel₀ hd.ne' ?_
    rw [← e1, ← e2]
    ring
  cases h1 : fuse (fuse g a) b
  cases h2 : fuse (fuse g b) a
  rw [h1, h2] at hPe hxe hwe
  simp only at hPe hxe hwe
  rw [hPe, hxe, hwe]

theorem fuse_all_posDef {g : Gauss n} (hP : g.P.PosDef) : ∀ {l : List (Seen n)},
    (∀ o ∈ l, o.z.P.PosDef) → (l.foldl fuse g).P.PosDef := by
  intro l
  induction l generalizing g with
  | nil => intro _; exact hP
  | cons a l ih =>
    intro h
    exact ih (fuse_posDef hP (h a (by simp))) fun o ho => h o (by simp [ho])

/-- C110: the reports of one object, of one or of several sensors, can be taken in any order: the mean, the
covariance and the weight of the component come out the same. -/
theorem C110_order {g : Gauss n} (hP : g.P.PosDef) {l l' : List (Seen n)} (hl : l.Perm l')
    (hR : ∀ o ∈ l, o.z.P.PosDef) : l.foldl fuse g = l'.foldl fuse g := by
  induction hl generalizing g with
  | nil => rfl
  | cons a _ ih =>
    exact ih (fuse_posDef hP (hR a (by simp))) fun o ho => hR o (by simp [ho])
  | swap a b l =>
    simp only [List.foldl_cons]
    rw [fuse_comm hP (hR b (by simp)) (hR a (by simp))]
  | trans h1 _ ih1 ih2 =>
    exact (ih1 hP hR).trans (ih2 hP fun o ho => hR o (h1.mem_iff.2 ho))

/-- Three reports of one object, by two position sensors and one that sees only the north coordinate. -/
noncomputable def exSeen : List (Seen 4) :=
  [⟨2, posH, 9 / 10, exRep⟩, ⟨2, posH, 1 / 2, ⟨![2, 5], (3 : ℝ) • 1, 1⟩⟩,
   ⟨1, !![1, 0, 0, 0], 1 / 3, ⟨![7], (2 : ℝ) • 1, 1 / 5⟩⟩]

example : exSeen.foldl fuse exTgt = exSeen.reverse.foldl fuse exTgt :=
  C110_order PosDef.one (List.reverse_perm _).symm (by
    intro o ho
    simp only [exSeen, List.mem_cons, List.not_mem_nil, or_false] at ho
    rcases ho with rfl | rfl | rfl
    · exact PosDef.one
    · exact PosDef.one.smul (by norm_num)
    · exact PosDef.one.smul (by norm_num))

/-! ## Quadratic forms -/

theorem fenchel {P : Matrix (Fin n) (Fin n) ℝ} (hP : P.PosDef) (a e : Fin n → ℝ) :
    2 * (a ⬝ᵥ e) ≤ e ⬝ᵥ P⁻¹ *ᵥ e + a ⬝ᵥ P *ᵥ a := by
  have h := hP.inv.posSemidef.dotProduct_mulVec_nonneg (e - P *ᵥ a)
  have hT : (P⁻¹)ᵀ = P⁻¹ := psd_symm hP.inv.posSemidef
  have e1 : P⁻¹ *ᵥ (P *ᵥ a) = a := by rw [mulVec_mulVec, posDef_inv_mul hP, one_mulVec]
  have e2 : (P *ᵥ a) ⬝ᵥ P⁻¹ *ᵥ e = a ⬝ᵥ e := by
    rw [dot_symm hT, e1, dotProduct_comm]
  simp only [star_trivial, mulVec_sub, dotProduct_sub, sub_dotProduct, e1, e2] at h
  rw [dotProduct_comm (P *ᵥ a) a, dotProduct_comm e a] at h
  linarith

/-- The scaled form. -/
theorem fenchel_smul {P : Matrix (Fin n) (Fin n) ℝ} (hP : P.PosDef) {c : ℝ} (hc : 0 < c)
    (a e : Fin n → ℝ) : 2 * (a ⬝ᵥ e) ≤ (e ⬝ᵥ P⁻¹ *ᵥ e) / c + c * (a ⬝ᵥ P *ᵥ a) := by
  have h := fenchel hP (c • a) e
  simp only [mulVec_smul, dotProduct_smul, smul_dotProduct, smul_eq_mul] at h
  rw [div_add' _ _ _ hc.ne', le_div_iff₀ hc]
  nlinarith

theorem fenchel_psd {Q : Matrix (Fin n) (Fin n) ℝ} (hQ : Q.PosSemidef) {c : ℝ} (hc : 0 < c)
    (a y : Fin n → ℝ) : 2 * (a ⬝ᵥ Q *ᵥ y) ≤ (y ⬝ᵥ Q *ᵥ y) / c + c * (a ⬝ᵥ Q *ᵥ a) := by
  have h := hQ.dotProduct_mulVec_nonneg (y - c • a)
  have e2 : y ⬝ᵥ Q *ᵥ a = a ⬝ᵥ Q *ᵥ y := dot_symm (psd_symm hQ) _ _
  simp only [star_trivial, mulVec_sub, dotProduct_sub, sub_dotProduct, mulVec_smul, dotProduct_smul,
    smul_dotProduct, smul_eq_mul, e2] at h
  rw [div_add' _ _ _ hc.ne', le_div_iff₀ hc]
  nlinarith

/-- The error in a direction is bounded by the variance in this direction. -/
theorem cauchy {P : Matrix (Fin n) (Fin n) ℝ} (hP : P.PosDef) (a e : Fin n → ℝ) :
    (a ⬝ᵥ e) ^ 2 ≤ (a ⬝ᵥ P *ᵥ a) * (e ⬝ᵥ P⁻¹ *ᵥ e) := by
  have hV : 0 ≤ e ⬝ᵥ P⁻¹ *ᵥ e := hP.inv.posSemidef.dotProduct_mulVec_nonneg e
  by_cases ha : a = 0
  · subst ha
    simp
  have hA : 0 < a ⬝ᵥ P *ᵥ a := by simpa using hP.dotProduct_mulVec_pos ha
  have h := fenchel hP (((a ⬝ᵥ e) / (a ⬝ᵥ P *ᵥ a)) • a) e
  simp only [mulVec_smul, dotProduct_smul, smul_dotProduct, smul_eq_mul] at h
  have h2 : (a ⬝ᵥ e) / (a ⬝ᵥ P *ᵥ a) * ((a ⬝ᵥ e) / (a ⬝ᵥ P *ᵥ a) * (a ⬝ᵥ P *ᵥ a)) =
      (a ⬝ᵥ e) ^ 2 / (a ⬝ᵥ P *ᵥ a) := by
    field_simp
  rw [h2] at h
  have h3 : 2 * ((a ⬝ᵥ e) / (a ⬝ᵥ P *ᵥ a) * (a ⬝ᵥ e)) = 2 * ((a ⬝ᵥ e) ^ 2 / (a ⬝ᵥ P *ᵥ a)) := by
    ring
  rw [h3] at h
  have h4 : (a ⬝ᵥ e) ^ 2 / (a ⬝ᵥ P *ᵥ a) ≤ e ⬝ᵥ P⁻¹ *ᵥ e := by linarith
  rw [div_le_iff₀ hA] at h4
  linarith

/-- No linear estimate of the state is better than the updated component. -/
theorem correct_optimal (H : Matrix (Fin m) (Fin n) ℝ) (z : Report m) (g : Gauss n)
    (hR : z.P.PosDef) (hP : g.P.PosDef) (pD : ℝ) (a : Fin n → ℝ) (c : Fin m → ℝ) :
    a ⬝ᵥ (correct H pD z g).P *ᵥ a ≤
      (a - Hᵀ *ᵥ c) ⬝ᵥ g.P *ᵥ (a - Hᵀ *ᵥ c) + c ⬝ᵥ z.P *ᵥ c := by
  have hP' := correct_posDef H z g hR hP pD
  have hinv := correct_inv H z g hR hP pD
  set P' := (correct H pD z g).P with hP'def
  set e := P' *ᵥ a with he
  have h1 := fenchel hP (a - Hᵀ *ᵥ c) e
  have h2 := fenchel hR c (H *ᵥ e)
  have h3 : e ⬝ᵥ P'⁻¹ *ᵥ e = a ⬝ᵥ P' *ᵥ a := by
    rw [he, mulVec_mulVec, posDef_inv_mul hP', one_mulVec, dotProduct_comm]
  rw [hinv, add_mulVec, dotProduct_add, ← mulVec_mulVec, ← mulVec_mulVec, dotProduct_mulVec e Hᵀ,
    vecMul_transpose] at h3
  have h4 : (Hᵀ *ᵥ c) ⬝ᵥ e = c ⬝ᵥ H *ᵥ e := by
    rw [mulVec_transpose, dotProduct_mulVec c H e]
  rw [sub_dotProduct, h4] at h1
  have h5 : a ⬝ᵥ e = a ⬝ᵥ P' *ᵥ a := rfl
  rw [h5] at h1
  linarith

/-! ## Histories -/

/-- What happens to a component of a target with a constant-velocity model between its creation and now:
a prediction over the time `dT` (`models.hpp:15-45`), an update with a report of a position sensor
(`gaussian.hpp:30-42`), or a change of its weight only: a scan in which the target is missed, a
normalization, a join (`gm.hpp:124-131, 172-205`). -/
inductive Ev where
  | pred (dT : ℝ)
  | see (pD : ℝ) (z : Report 2)
  | weigh (c : ℝ)

/-- One event, `models.hpp:15-45`, `gaussian.hpp:30-42`. -/
noncomputable def Ev.run (q : ℝ) (g : Gauss 4) : Ev → Gauss 4
  | .pred dT => linearUpdate (cvF dT) (cvQ q dT) g
  | .see pD z => correct posH pD z g
  | .weigh c => { g with w := g.w * c }

/-- A history is possible: time does not run backwards, and the covariances of reports are positive
definite. -/
def Ev.Ok : Ev → Prop
  | .pred dT => 0 ≤ dT
  | .see _ z => z.P.PosDef
  | .weigh _ => True

/-- The events do not contain a report, and take the time `T`. -/
inductive Quiet : List Ev → ℝ → Prop where
  | nil : Quiet [] 0
  | pred {l : List Ev} {T : ℝ} (dT : ℝ) : 0 ≤ dT → Quiet l T → Quiet (.pred dT :: l) (dT + T)
  | weigh {l : List Ev} {T : ℝ} (c : ℝ) : Quiet l T → Quiet (.weigh c :: l) T

theorem cvF_mul (a b : ℝ) : cvF b * cvF a = cvF (a + b) := by
  ext i j
  fin_cases i <;> fin_cases j <;> simp [cvF, Matrix.mul_apply, Fin.sum_univ_four]

theorem cvQ_add (q a b : ℝ) : cvF b * cvQ q a * (cvF b)ᵀ + cvQ q b = cvQ q (a + b) := by
  ext i j
  fin_cases i <;> fin_cases j <;>
    simp [cvF, cvQ, Matrix.mul_apply, Fin.sum_univ_four, Matrix.vecMul, dotProduct] <;> ring

theorem cvF_zero : cvF 0 = 1 := by
  ext i j
  fin_cases i <;> fin_cases j <;> simp [cvF, Matrix.one_apply]

theorem cvQ_zero (q : ℝ) : cvQ q 0 = 0 := by
  ext i j
  fin_cases i <;> fin_cases j <;> simp [cvQ]

theorem cvF_inv (a : ℝ) : cvF (-a) * cvF a = 1 := by
  rw [cvF_mul, add_neg_cancel, cvF_zero]

theorem pred_posDef {q dT : ℝ} (hq : 0 ≤ q) (hd : 0 ≤ dT) {P : Matrix (Fin 4) (Fin 4) ℝ}
    (hP : P.PosDef) : (cvF dT * P * (cvF dT)ᵀ + cvQ q dT).PosDef := by
  apply PosDef.add_posSemidef _ ((C43_cv_noise q dT).1 hq hd)
  have hu : Function.Injective (cvF dT).vecMul := by
    intro x y h
    have h1 := congrArg (fun v => v ᵥ* cvF (-dT)) h
    have h2 : cvF dT * cvF (-dT) = 1 := by simpa using cvF_inv (-dT)
    simpa [vecMul_vecMul, h2] using h1
  have := hP.mul_mul_conjTranspose_same (B := cvF dT) hu
  simpa [conjTranspose_eq_transpose_of_trivial] using this

theorem ev_posDef {q : ℝ} (hq : 0 ≤ q) {g : Gauss 4} (hP : g.P.PosDef) {e : Ev} (he : e.Ok) :
    (e.run q g).P.PosDef := by
  cases e with
  | pred dT => exact pred_posDef hq he hP
  | see pD z => exact correct_posDef posH z g he hP pD
  | weigh c => exact hP

theorem run_posDef {q : ℝ} (hq : 0 ≤ q) : ∀ {l : List Ev} {g : Gauss 4}, g.P.PosDef →
    (∀ e ∈ l, e.Ok) → (l.foldl (Ev.run q) g).P.PosDef
  | [], _, hP, _ => hP
  | e :: l, _, hP, h => run_posDef hq (l := l) (ev_posDef hq hP (h e (by simp)))
      fun e' he' => h e' (by simp [he'])

/-- Without reports, the covariance is that of one prediction over the whole time. -/
theorem quiet_run {q : ℝ} {l : List Ev} {T : ℝ} (h : Quiet l T) : ∀ g : Gauss 4,
    (l.foldl (Ev.run q) g).P = cvF T * g.P * (cvF T)ᵀ + cvQ q T := by
  induction h with
  | nil => intro g; simp [cvF_zero, cvQ_zero]
  | pred dT _ _ ih =>
    intro g
    rw [List.foldl_cons, ih]
    change cvF _ * (cvF dT * g.P * (cvF dT)ᵀ + cvQ q dT) * _ + _ = _
    rw [← cvQ_add q dT, ← cvF_mul dT, transpose_mul]
    simp only [Matrix.mul_add, Matrix.add_mul, Matrix.mul_assoc, add_assoc]
  | weigh c _ ih => intro g; exact ih _

theorem quiet_nonneg {l : List Ev} {T : ℝ} (h : Quiet l T) : 0 ≤ T := by
  induction h with
  | nil => exact le_refl _
  | pred dT h _ ih => exact add_nonneg h ih
  | weigh c _ ih => exact ih

theorem quiet_ok {l : List Ev} {T : ℝ} (h : Quiet l T) : ∀ e ∈ l, e.Ok := by
  induction h with
  | nil => simp
  | pred dT h _ ih =>
    intro e he
    rcases List.mem_cons.1 he with rfl | he
    · exact h
    · exact ih e he
  | weigh c _ ih =>
    intro e he
    rcases List.mem_cons.1 he with rfl | he
    · trivial
    · exact ih e he

/-! ## C111: certainty -/

/-- The direction with position part `p` and velocity part `u`. -/
def dir (p u : Fin 2 → ℝ) : Fin 4 → ℝ := ![p 0, p 1, u 0, u 1]

theorem posH_T (p : Fin 2 → ℝ) : posHᵀ *ᵥ p = dir p 0 := by
  ext i
  fin_cases i <;> simp [posH, dir, mulVec, dotProduct, Fin.sum_univ_two]

theorem cvF_T (T : ℝ) (p u : Fin 2 → ℝ) : (cvF T)ᵀ *ᵥ dir p u = dir p (u + T • p) := by
  ext i
  fin_cases i <;> simp [cvF, dir, mulVec, dotProduct, Fin.sum_univ_four] <;> ring

theorem dir_sub (p u p' u' : Fin 2 → ℝ) : dir p u - dir p' u' = dir (p - p') (u - u') := by
  ext i
  fin_cases i <;> simp [dir]

theorem dir_cvQ (q T : ℝ) (p u : Fin 2 → ℝ) : dir p u ⬝ᵥ cvQ q T *ᵥ dir p u =
    q * (T * (u ⬝ᵥ u) + T ^ 2 * (p ⬝ᵥ u) + T ^ 3 / 3 * (p ⬝ᵥ p)) := by
  simp [cvQ, dir, dotProduct, mulVec, Fin.sum_univ_four, Fin.sum_univ_two]
  ring

theorem quad_pred (F Q P : Matrix (Fin n) (Fin n) ℝ) (a : Fin n → ℝ) :
    a ⬝ᵥ (F * P * Fᵀ + Q) *ᵥ a = (Fᵀ *ᵥ a) ⬝ᵥ P *ᵥ (Fᵀ *ᵥ a) + a ⬝ᵥ Q *ᵥ a := by
  rw [add_mulVec, dotProduct_add, ← mulVec_mulVec, ← mulVec_mulVec, dotProduct_mulVec a F,
    ← mulVec_transpose]

/-- After the update the position is at least as certain as the report. -/
theorem see_position {g : Gauss 4} (hP : g.P.PosDef) {z : Report 2} (hR : z.P.PosDef) (pD : ℝ)
    (p : Fin 2 → ℝ) : dir p 0 ⬝ᵥ (correct posH pD z g).P *ᵥ dir p 0 ≤ p ⬝ᵥ z.P *ᵥ p := by
  have h := correct_optimal posH z g hR hP pD (dir p 0) p
  rw [posH_T, sub_self] at h
  simpa using h

/-- Two reports `T` apart bound the whole covariance. -/
theorem two_reports {q : ℝ} (hq : 0 ≤ q) {g : Gauss 4} (hP : g.P.PosDef) {z1 z2 : Report 2}
    (h1 : z1.P.PosDef) (h2 : z2.P.PosDef) {pD1 pD2 : ℝ} {gap : List Ev} {T : ℝ} (hgap : Quiet gap T)
    (hT : 0 < T) (p u : Fin 2 → ℝ) :
    dir p u ⬝ᵥ ((Ev.see pD1 z1 :: (gap ++ [Ev.see pD2 z2])).foldl (Ev.run q) g).P *ᵥ dir p u ≤
      (p + (1 / T) • u) ⬝ᵥ z2.P *ᵥ (p + (1 / T) • u) + (u ⬝ᵥ z1.P *ᵥ u) / T ^ 2 +
        q * T / 3 * (u ⬝ᵥ u) := by
  rw [List.foldl_cons, List.foldl_append, List.foldl_cons, List.foldl_nil]
  set g1 := Ev.run q g (.see pD1 z1) with hg1
  have hp1 : g1.P.PosDef := correct_posDef posH z1 g h1 hP pD1
  have hq2 := quiet_run hgap (q := q) g1
  set g2 := gap.foldl (Ev.run q) g1 with hg2
  have hp2 : g2.P.PosDef := run_posDef hq hp1 (quiet_ok hgap)
  have h := correct_optimal posH z2 g2 h2 hp2 pD2 (dir p u) (p + (1 / T) • u)
  refine h.trans ?_
  rw [posH_T, dir_sub, hq2, quad_pred, cvF_T, dir_cvQ]
  have e1 : p - (p + (1 / T) • u) = -((1 / T) • u) := by abel
  have e2 : u - 0 + T • (p - (p + (1 / T) • u)) = 0 := by
    rw [e1, smul_neg, smul_smul, mul_one_div_cancel hT.ne', one_smul]
    abel
  rw [e2, e1]
  have h3 := see_position hP h1 pD1 (-((1 / T) • u))
  change _ ⬝ᵥ g1.P *ᵥ _ ≤ _ at h3
  simp only [neg_dotProduct, dotProduct_neg, mulVec_neg, mulVec_smul, dotProduct_smul, smul_dotProduct,
    smul_eq_mul, sub_zero, neg_neg] at h3 ⊢
  have e3 : -(1 / T * -(1 / T * (u ⬝ᵥ z1.P *ᵥ u))) = (u ⬝ᵥ z1.P *ᵥ u) / T ^ 2 := by
    field_simp
  have e4 : q * (T * (u ⬝ᵥ u) + T ^ 2 * -(1 / T * (u ⬝ᵥ u)) + T ^ 3 / 3 * -(1 / T * -(1 / T * (u ⬝ᵥ u)))) =
      q * T / 3 * (u ⬝ᵥ u) := by
    field_simp
    ring
  rw [e3] at h3
  rw [e4]
  linarith

/-- C111: after a report, the position of the component is at least as certain as the report, in every
direction, whatever happened before. -/
theorem C111_position {q : ℝ} (hq : 0 ≤ q) {g : Gauss 4} (hP : g.P.PosDef) {l : List Ev}
    (hl : ∀ e ∈ l, e.Ok) {z : Report 2} (hR : z.P.PosDef) (pD : ℝ) (p : Fin 2 → ℝ) :
    dir p 0 ⬝ᵥ ((l ++ [Ev.see pD z]).foldl (Ev.run q) g).P *ᵥ dir p 0 ≤ p ⬝ᵥ z.P *ᵥ p := by
  rw [List.foldl_append]
  exact see_position (run_posDef hq hP hl) hR pD p

/-- C111: the last two reports, a time `T` apart, bound the covariance of position and velocity at every time
`τ` after them, however uncertain the component was before. -/
theorem C111_certain {q : ℝ} (hq : 0 ≤ q) {g : Gauss 4} (hP : g.P.PosDef) {l : List Ev}
    (hl : ∀ e ∈ l, e.Ok) {z1 z2 : Report 2} (h1 : z1.P.PosDef) (h2 : z2.P.PosDef) {pD1 pD2 : ℝ}
    {gap after : List Ev} {T τ : ℝ} (hgap : Quiet gap T) (hT : 0 < T) (hafter : Quiet after τ)
    (p u : Fin 2 → ℝ) :
    dir p u ⬝ᵥ ((l ++ Ev.see pD1 z1 :: (gap ++ [Ev.see pD2 z2]) ++ after).foldl (Ev.run q) g).P *ᵥ
        dir p u ≤
      (p + (1 / T) • (u + τ • p)) ⬝ᵥ z2.P *ᵥ (p + (1 / T) • (u + τ • p)) +
        ((u + τ • p) ⬝ᵥ z1.P *ᵥ (u + τ • p)) / T ^ 2 + q * T / 3 * ((u + τ • p) ⬝ᵥ (u + τ • p)) +
        q * (τ * (u ⬝ᵥ u) + τ ^ 2 * (p ⬝ᵥ u) + τ ^ 3 / 3 * (p ⬝ᵥ p)) := by
  rw [List.foldl_append, List.foldl_append, quiet_run hafter, quad_pred, cvF_T, dir_cvQ]
  have := two_reports hq (run_posDef hq hP hl) h1 h2 (pD1 := pD1) (pD2 := pD2) hgap hT p (u + τ • p)
  linarith

/-- C111: with a report every `T`, each with a variance of at most `ρ` in each direction, the position
that is expected for the next scan has a variance of at most `5 ρ + 2 q T³ / 3` in each direction. -/
theorem C111_gate {q : ℝ} (hq : 0 ≤ q) {g : Gauss 4} (hP : g.P.PosDef) {l : List Ev}
    (hl : ∀ e ∈ l, e.Ok) {z1 z2 : Report 2} (h1 : z1.P.PosDef) (h2 : z2.P.PosDef) {pD1 pD2 ρ : ℝ}
    (hz1 : ∀ p, p ⬝ᵥ z1.P *ᵥ p ≤ ρ * (p ⬝ᵥ p)) (hz2 : ∀ p, p ⬝ᵥ z2.P *ᵥ p ≤ ρ * (p ⬝ᵥ p))
    {gap after : List Ev} {T : ℝ} (hgap : Quiet gap T) (hT : 0 < T) (hafter : Quiet after T)
    (p : Fin 2 → ℝ) :
    dir p 0 ⬝ᵥ ((l ++ Ev.see pD1 z1 :: (gap ++ [Ev.see pD2 z2]) ++ after).foldl (Ev.run q) g).P *ᵥ
        dir p 0 ≤ (5 * ρ + 2 * q * T ^ 3 / 3) * (p ⬝ᵥ p) := by
  have h := C111_certain hq hP hl h1 h2 (pD1 := pD1) (pD2 := pD2) hgap hT hafter p 0
  refine h.trans ?_
  have e : p + (1 / T) • (0 + T • p) = (2 : ℝ) • p := by
    rw [zero_add, smul_smul, one_div_mul_cancel hT.ne', one_smul, two_smul]
  have b1 := hz2 ((2 : ℝ) • p)
  have b2 := hz1 (T • p)
  rw [e, zero_add]
  simp only [dotProduct_smul, smul_dotProduct, smul_eq_mul, dotProduct_zero] at b1 b2 ⊢
  have e2 : T * (T * (ρ * (p ⬝ᵥ p))) / T ^ 2 = ρ * (p ⬝ᵥ p) := by field_simp
  have b3 : (T • p) ⬝ᵥ z1.P *ᵥ (T • p) / T ^ 2 ≤ ρ * (p ⬝ᵥ p) := by
    rw [← e2]
    apply div_le_div_of_nonneg_right _ (by positivity)
    simp only [dotProduct_smul, smul_dotProduct, smul_eq_mul]
    linarith
  simp only [dotProduct_smul, smul_dotProduct, smul_eq_mul] at b3
  have e5 : q * T / 3 * (T * (T * (p ⬝ᵥ p))) + q * (T * 0 + T ^ 2 * 0 + T ^ 3 / 3 * (p ⬝ᵥ p)) =
      2 * q * T ^ 3 / 3 * (p ⬝ᵥ p) := by ring
  linarith

/-- A component that has just been created knows nothing about its velocity but the prior. -/
noncomputable def exNew : Gauss 4 := init1 ((100 : ℝ) • 1) exRep

theorem init1_posDef {pv : Matrix (Fin 2) (Fin 2) ℝ} (hpv : pv.PosDef) {z : Report 2}
    (hz : z.P.PosDef) : (init1 pv z).P.PosDef := by
  have hps := C43_init_psd pv hpv.posSemidef z hz.posSemidef
  apply PosDef.of_dotProduct_mulVec_pos hps.1
  intro x hx
  have e : star x ⬝ᵥ (init1 pv z).P *ᵥ x = ![x 0, x 1] ⬝ᵥ z.P *ᵥ ![x 0, x 1] +
      ![x 2, x 3] ⬝ᵥ pv *ᵥ ![x 2, x 3] := by
    simp [init1, dotProduct, mulVec, Fin.sum_univ_four, Fin.sum_univ_two]
    ring
  rw [e]
  have p1 : 0 ≤ ![x 0, x 1] ⬝ᵥ z.P *ᵥ ![x 0, x 1] := by
    simpa using hz.posSemidef.dotProduct_mulVec_nonneg ![x 0, x 1]
  have p2 : 0 ≤ ![x 2, x 3] ⬝ᵥ pv *ᵥ ![x 2, x 3] := by
    simpa using hpv.posSemidef.dotProduct_mulVec_nonneg ![x 2, x 3]
  by_cases h : ![x 0, x 1] = 0
  · have h' : ![x 2, x 3] ≠ 0 := by
      intro h'
      apply hx
      ext i
      have a0 := congrFun h 0
      have a1 := congrFun h 1
      have a2 := congrFun h' 0
      have a3 := congrFun h' 1
      simp at a0 a1 a2 a3
      fin_cases i <;> simp [a0, a1, a2, a3]
    have : 0 < ![x 2, x 3] ⬝ᵥ pv *ᵥ ![x 2, x 3] := by simpa using hpv.dotProduct_mulVec_pos h'
    linarith
  · have : 0 < ![x 0, x 1] ⬝ᵥ z.P *ᵥ ![x 0, x 1] := by simpa using hz.dotProduct_mulVec_pos h
    linarith

theorem exNew_posDef : exNew.P.PosDef := init1_posDef (PosDef.one.smul (by norm_num)) PosDef.one

/-- Two seconds with a scan that misses the object in between. -/
noncomputable def exGap : List Ev := [.weigh (1 / 2), .pred 1, .weigh (1 / 3), .pred 1]

theorem exQuiet : Quiet exGap 2 := by
  have : Quiet exGap (1 + (1 + 0)) :=
    .weigh _ (.pred 1 (by norm_num) (.weigh _ (.pred 1 (by norm_num) .nil)))
  norm_num at this
  exact this

theorem exRep_le (p : Fin 2 → ℝ) : p ⬝ᵥ exRep.P *ᵥ p ≤ 1 * (p ⬝ᵥ p) := by
  simp [exRep]

/-- The variances of the next position are at most 31/3, although the velocity started with variance
100 and the object was missed once between the reports. -/
example (p : Fin 2 → ℝ) : dir p 0 ⬝ᵥ (([Ev.pred 3] ++ Ev.see (9 / 10) exRep ::
    (exGap ++ [Ev.see (9 / 10) exRep]) ++ exGap).foldl (Ev.run 1) exNew).P *ᵥ dir p 0 ≤
    (5 * 1 + 2 * 1 * 2 ^ 3 / 3) * (p ⬝ᵥ p) :=
  C111_gate (by norm_num) exNew_posDef (by simp [Ev.Ok]) PosDef.one PosDef.one exRep_le exRep_le exQuiet
    (by norm_num) exQuiet p

example (p : Fin 2 → ℝ) := C111_position (q := 1) (by norm_num) exNew_posDef (l := [.pred 3])
  (by simp [Ev.Ok]) (z := exRep) PosDef.one (9 / 10) p

/-! ## C112: the error -/

/-- The squared error of the component for an object in the state `X`, in units of its covariance. -/
noncomputable def err (g : Gauss 4) (X : Fin 4 → ℝ) : ℝ := (X - g.x) ⬝ᵥ g.P⁻¹ *ᵥ (X - g.x)

/-- The prediction of an object that deviates by `Q y` from the constant velocity. -/
theorem pred_err {F Q P : Matrix (Fin n) (Fin n) ℝ} (hP : P.PosDef) (hQ : Q.PosSemidef)
    (hS : (F * P * Fᵀ + Q).PosDef) {α : ℝ} (hα : 0 < α) {β : ℝ} (hβ : 0 < β)
    (hαβ : ∀ v, α * (v ⬝ᵥ (F * P * Fᵀ) *ᵥ v) + β * (v ⬝ᵥ Q *ᵥ v) ≤ v ⬝ᵥ (F * P * Fᵀ + Q) *ᵥ v)
    (e y : Fin n → ℝ) :
    (F *ᵥ e + Q *ᵥ y) ⬝ᵥ (F * P * Fᵀ + Q)⁻¹ *ᵥ (F *ᵥ e + Q *ᵥ y) ≤
      (e ⬝ᵥ P⁻¹ *ᵥ e) / α + (y ⬝ᵥ Q *ᵥ y) / β := by
  set S := F * P * Fᵀ + Q with hSdef
  set f := F *ᵥ e + Q *ᵥ y with hf
  set v := S⁻¹ *ᵥ f with hv
  have h1 := fenchel_smul hP hα (Fᵀ *ᵥ v) e
  have h2 := fenchel_psd hQ hβ v y
  have h3 : f ⬝ᵥ v = v ⬝ᵥ S *ᵥ v := by
    have : S *ᵥ v = f := by rw [hv, mulVec_mulVec, posDef_mul_inv hS, one_mulVec]
    rw [this, dotProduct_comm]
  have h4 : (Fᵀ *ᵥ v) ⬝ᵥ e = v ⬝ᵥ F *ᵥ e := by
    rw [mulVec_transpose, dotProduct_mulVec v F e]
  have h5 : (Fᵀ *ᵥ v) ⬝ᵥ P *ᵥ (Fᵀ *ᵥ v) = v ⬝ᵥ (F * P * Fᵀ) *ᵥ v := by
    rw [← mulVec_mulVec, ← mulVec_mulVec, dotProduct_mulVec v F, ← mulVec_transpose]
  have h6 : f ⬝ᵥ v = v ⬝ᵥ F *ᵥ e + v ⬝ᵥ Q *ᵥ y := by
    rw [hf, add_dotProduct, dotProduct_comm (F *ᵥ e), dotProduct_comm (Q *ᵥ y)]
  have h7 := hαβ v
  rw [h4, h5] at h1
  rw [← h3] at h7
  linarith

/-- The object moves from `X` to the state after the events while the component goes through them; the
manoeuvres of the object and the errors of the reports cost `c`.  A manoeuvre `Q y` during a prediction costs
`yᵀ Q y`, an error `v` of a report with covariance `R` costs `vᵀ R⁻¹ v`. -/
inductive Moves (q : ℝ) : (Fin 4 → ℝ) → List Ev → ℝ → (Fin 4 → ℝ) → Prop where
  | nil (X : Fin 4 → ℝ) : Moves q X [] 0 X
  | pred {X X' : Fin 4 → ℝ} {l : List Ev} {c : ℝ} (dT : ℝ) (y : Fin 4 → ℝ) :
      Moves q (cvF dT *ᵥ X + cvQ q dT *ᵥ y) l c X' →
      Moves q X (.pred dT :: l) (y ⬝ᵥ cvQ q dT *ᵥ y + c) X'
  | see {X X' : Fin 4 → ℝ} {l : List Ev} {c : ℝ} (pD : ℝ) (z : Report 2) :
      Moves q X l c X' →
      Moves q X (.see pD z :: l) ((z.x - posH *ᵥ X) ⬝ᵥ z.P⁻¹ *ᵥ (z.x - posH *ᵥ X) + c) X'
  | weigh {X X' : Fin 4 → ℝ} {l : List Ev} {c : ℝ} (k : ℝ) :
      Moves q X l c X' → Moves q X (.weigh k :: l) c X'

theorem see_err {g : Gauss 4} (hP : g.P.PosDef) {z : Report 2} (hR : z.P.PosDef) (pD : ℝ)
    (X : Fin 4 → ℝ) : err (correct posH pD z g) X ≤
      err g X + (z.x - posH *ᵥ X) ⬝ᵥ z.P⁻¹ *ᵥ (z.x - posH *ᵥ X) := by
  have h := exponent posH z g hR hP pD X
  have h0 : 0 ≤ innov posH z g ⬝ᵥ dinv posH z g *ᵥ innov posH z g := by
    simpa using (dinv_posDef posH z g hR hP.posSemidef).posSemidef.dotProduct_mulVec_nonneg
      (innov posH z g)
  unfold err
  linarith

theorem pred_diff (q dT : ℝ) (g : Gauss 4) (X y : Fin 4 → ℝ) :
    cvF dT *ᵥ X + cvQ q dT *ᵥ y - (linearUpdate (cvF dT) (cvQ q dT) g).x =
      cvF dT *ᵥ (X - g.x) + cvQ q dT *ᵥ y := by
  change _ - cvF dT *ᵥ g.x = _
  rw [mulVec_sub]
  abel

/-- C112: over any history, the error of the component grows by no more than the errors of the reports and
the manoeuvres of the object cost. -/
theorem C112_error {q : ℝ} (hq : 0 ≤ q) {l : List Ev} {X X' : Fin 4 → ℝ} {c : ℝ}
    (hm : Moves q X l c X') : ∀ {g : Gauss 4}, g.P.PosDef → (∀ e ∈ l, e.Ok) →
    err (l.foldl (Ev.run q) g) X' ≤ err g X + c := by
  induction hm with
  | nil X => intro g _ _; simp
  | @pred X X' l c dT y _ ih =>
    intro g hP hl
    have hd : 0 ≤ dT := hl (.pred dT) (by simp)
    have h1 := ih (g := Ev.run q g (.pred dT)) (pred_posDef hq hd hP) fun e he => hl e (by simp [he])
    have h2 := pred_err hP ((C43_cv_noise q dT).1 hq hd) (pred_posDef hq hd hP) (α := 1) (by norm_num)
      (β := 1) (by norm_num) (by intro v; rw [add_mulVec, dotProduct_add]; linarith) (X - g.x) y
    have h3 : err (Ev.run q g (.pred dT)) (cvF dT *ᵥ X + cvQ q dT *ᵥ y) ≤
        err g X + y ⬝ᵥ cvQ q dT *ᵥ y := by
      change (_ - (linearUpdate (cvF dT) (cvQ q dT) g).x) ⬝ᵥ _ *ᵥ
        (_ - (linearUpdate (cvF dT) (cvQ q dT) g).x) ≤ _
      rw [pred_diff]
      rw [div_one, div_one] at h2
      exact h2
    rw [List.foldl_cons]
    linarith
  | @see X X' l c pD z _ ih =>
    intro g hP hl
    have hR : z.P.PosDef := hl (.see pD z) (by simp)
    have h1 := ih (g := Ev.run q g (.see pD z)) (correct_posDef posH z g hR hP pD)
      fun e he => hl e (by simp [he])
    have h2 := see_err hP hR pD X
    rw [List.foldl_cons]
    change err (correct posH pD z g) X ≤ _ at h2
    change _ ≤ err (correct posH pD z g) X + _ at h1
    linarith
  | weigh k _ ih =>
    intro g hP hl
    exact ih (g := { g with w := g.w * k }) hP fun e he => hl e (by simp [he])

/-- C112: the error of the position after a report, in every direction. -/
theorem C112_position {q : ℝ} (hq : 0 ≤ q) {l : List Ev} {X X' : Fin 4 → ℝ} {c : ℝ} {pD : ℝ}
    {z : Report 2} (hm : Moves q X (l ++ [Ev.see pD z]) c X') {g : Gauss 4} (hP : g.P.PosDef)
    (hl : ∀ e ∈ l, e.Ok) (hR : z.P.PosDef) (p : Fin 2 → ℝ) :
    (dir p 0 ⬝ᵥ (X' - ((l ++ [Ev.see pD z]).foldl (Ev.run q) g).x)) ^ 2 ≤
      (p ⬝ᵥ z.P *ᵥ p) * (err g X + c) := by
  have hok : ∀ e ∈ l ++ [Ev.see pD z], e.Ok := by
    intro e he
    rcases List.mem_append.1 he with he | he
    · exact hl e he
    · rw [List.mem_singleton.1 he]
      exact hR
  have hP' := run_posDef hq hP hok
  have h1 := C112_error hq hm hP hok
  have h2 := cauchy hP' (dir p 0) (X' - ((l ++ [Ev.see pD z]).foldl (Ev.run q) g).x)
  have h3 := C111_position hq hP hl hR pD p
  have h0 : 0 ≤ p ⬝ᵥ z.P *ᵥ p := by simpa using hR.posSemidef.dotProduct_mulVec_nonneg p
  have h4 : 0 ≤ err ((l ++ [Ev.see pD z]).foldl (Ev.run q) g) X' := by
    simpa [err] using hP'.inv.posSemidef.dotProduct_mulVec_nonneg
      (X' - ((l ++ [Ev.see pD z]).foldl (Ev.run q) g).x)
  refine h2.trans ((mul_le_mul_of_nonneg_right h3 h4).trans (mul_le_mul_of_nonneg_left h1 h0))

/-- What happens between two scans: the manoeuvre of the object, and the report about it. -/
structure Step where
  y : Fin 4 → ℝ
  pD : ℝ
  z : Report 2

/-- A component with a report every `T`, `models.hpp:15-45`, `gaussian.hpp:30-42`. -/
noncomputable def track (q T : ℝ) (g : Gauss 4) (s : Step) : Gauss 4 :=
  correct posH s.pD s.z (linearUpdate (cvF T) (cvQ q T) g)

/-- The object. -/
noncomputable def move (q T : ℝ) (X : Fin 4 → ℝ) (s : Step) : Fin 4 → ℝ :=
  cvF T *ᵥ X + cvQ q T *ᵥ s.y

/-- The reports have a variance of at most `ρ` in each direction; the manoeuvre and the error of the report
cost at most `c` at each step. -/
def Calm (q T ρ c : ℝ) : (Fin 4 → ℝ) → List Step → Prop
  | _, [] => True
  | X, s :: l => s.z.P.PosDef ∧ (∀ p, p ⬝ᵥ s.z.P *ᵥ p ≤ ρ * (p ⬝ᵥ p)) ∧
      2 * (s.y ⬝ᵥ cvQ q T *ᵥ s.y) + (s.z.x - posH *ᵥ move q T X s) ⬝ᵥ s.z.P⁻¹ *ᵥ
        (s.z.x - posH *ᵥ move q T X s) ≤ c ∧ Calm q T ρ c (move q T X s) l

/-- The bound of C111 for reports every `T`. -/
def Sharp (q T ρ : ℝ) (g : Gauss 4) : Prop := ∀ p u, dir p u ⬝ᵥ g.P *ᵥ dir p u ≤
  ρ * ((p + (1 / T) • u) ⬝ᵥ (p + (1 / T) • u)) + ρ * (u ⬝ᵥ u) / T ^ 2 + q * T / 3 * (u ⬝ᵥ u)

theorem track_posDef {q T : ℝ} (hq : 0 ≤ q) (hT : 0 ≤ T) {g : Gauss 4} (hP : g.P.PosDef) {s : Step}
    (hR : s.z.P.PosDef) : (track q T g s).P.PosDef :=
  correct_posDef posH s.z (linearUpdate (cvF T) (cvQ q T) g) hR (pred_posDef hq hT hP) s.pD

theorem track_sharp {q T ρ : ℝ} (hq : 0 ≤ q) (hT : 0 < T) {g : Gauss 4} (hP : g.P.PosDef)
    (hg : ∀ p, dir p 0 ⬝ᵥ g.P *ᵥ dir p 0 ≤ ρ * (p ⬝ᵥ p)) {s : Step} (hR : s.z.P.PosDef)
    (hρ : ∀ p, p ⬝ᵥ s.z.P *ᵥ p ≤ ρ * (p ⬝ᵥ p)) : Sharp q T ρ (track q T g s) := by
  intro p u
  have h := correct_optimal posH s.z (linearUpdate (cvF T) (cvQ q T) g) hR (pred_posDef hq hT.le hP) s.pD
    (dir p u) (p + (1 / T) • u)
  refine h.trans ?_
  change _ ⬝ᵥ (cvF T * g.P * (cvF T)ᵀ + cvQ q T) *ᵥ _ + _ ≤ _
  rw [posH_T, dir_sub, quad_pred, cvF_T, dir_cvQ]
  have e1 : p - (p + (1 / T) • u) = -((1 / T) • u) := by abel
  have e2 : u - 0 + T • (p - (p + (1 / T) • u)) = 0 := by
    rw [e1, smul_neg, smul_smul, mul_one_div_cancel hT.ne', one_smul]
    abel
  rw [e2, e1]
  have h3 := hg (-((1 / T) • u))
  have h4 := hρ (p + (1 / T) • u)
  simp only [neg_dotProduct, dotProduct_neg, dotProduct_smul, smul_dotProduct,
    smul_eq_mul, sub_zero] at h3 ⊢
  have e3 : ρ * -(1 / T * -(1 / T * (u ⬝ᵥ u))) = ρ * (u ⬝ᵥ u) / T ^ 2 := by
    field_simp
  have e4 : q * (T * (u ⬝ᵥ u) + T ^ 2 * -(1 / T * (u ⬝ᵥ u)) + T ^ 3 / 3 * -(1 / T * -(1 / T * (u ⬝ᵥ u)))) =
      q * T / 3 * (u ⬝ᵥ u) := by
    field_simp
    ring
  rw [e3] at h3
  rw [e4]
  linarith

theorem sharp_position {q T ρ : ℝ} {g : Gauss 4} (h : Sharp q T ρ g) (p : Fin 2 → ℝ) :
    dir p 0 ⬝ᵥ g.P *ᵥ dir p 0 ≤ ρ * (p ⬝ᵥ p) := by
  simpa using h p 0

/-- How much the old covariance can exceed the noise that a prediction adds. -/
noncomputable def ratio (q T ρ : ℝ) : ℝ := 32 * ρ / (q * T ^ 3) + 4 / 3

theorem sharp_ratio {q T ρ : ℝ} (hq : 0 < q) (hT : 0 < T) (hρ : 0 ≤ ρ) {g : Gauss 4}
    (h : Sharp q T ρ g) (v : Fin 4 → ℝ) :
    v ⬝ᵥ (cvF T * g.P * (cvF T)ᵀ) *ᵥ v ≤ ratio q T ρ * (v ⬝ᵥ cvQ q T *ᵥ v) := by
  obtain ⟨p, u, rfl⟩ : ∃ p u, v = dir p u := ⟨![v 0, v 1], ![v 2, v 3], by
    ext i
    fin_cases i <;> simp [dir]⟩
  have e := quad_pred (cvF T) 0 g.P (dir p u)
  rw [add_zero, zero_mulVec, dotProduct_zero, add_zero, cvF_T] at e
  rw [e, dir_cvQ]
  refine (h p (u + T • p)).trans ?_
  obtain ⟨s, rfl⟩ : ∃ s : Fin 2 → ℝ, u = T • s := ⟨(1 / T) • u, by
    rw [smul_smul, mul_one_div_cancel hT.ne', one_smul]⟩
  have e1 : p + (1 / T) • (T • s + T • p) = (2 : ℝ) • p + s := by
    rw [smul_add, smul_smul, smul_smul, one_div_mul_cancel hT.ne', one_smul, one_smul, two_smul]
    abel
  rw [e1]
  simp only [dotProduct_add, add_dotProduct, dotProduct_smul, smul_dotProduct, smul_eq_mul]
  rw [dotProduct_comm s p]
  have hpp : 0 ≤ p ⬝ᵥ p := by simpa using dotProduct_star_self_nonneg p
  have hss : 0 ≤ s ⬝ᵥ s := by simpa using dotProduct_star_self_nonneg s
  -- two squares
  have k1 : 0 ≤ ((30 : ℝ) • s + (13 : ℝ) • p) ⬝ᵥ ((30 : ℝ) • s + (13 : ℝ) • p) := by
    simpa only [star_trivial] using dotProduct_star_self_nonneg ((30 : ℝ) • s + (13 : ℝ) • p)
  have k2 : 0 ≤ ((3 : ℝ) • s + p) ⬝ᵥ ((3 : ℝ) • s + p) := by
    simpa only [star_trivial] using dotProduct_star_self_nonneg ((3 : ℝ) • s + p)
  simp only [dotProduct_add, add_dotProduct, dotProduct_smul, smul_dotProduct, smul_eq_mul] at k1 k2
  rw [dotProduct_comm s p] at k1 k2
  generalize p ⬝ᵥ p = A at *
  generalize p ⬝ᵥ s = B at *
  generalize s ⬝ᵥ s = C at *
  have j1 : 5 * A + 6 * B + 2 * C ≤ 32 * (C + B + A / 3) := by linarith
  have j2 : (C + 2 * B + A) / 3 ≤ 4 / 3 * (C + B + A / 3) := by linarith
  have r1 : ρ * (2 * (2 * A + B) + (2 * B + C)) + ρ * (T * (T * C + T * B) +
      T * (T * B + T * A)) / T ^ 2 = ρ * (5 * A + 6 * B + 2 * C) := by
    field_simp
    ring
  have r2 : ratio q T ρ * (q * (T * (T * (T * C)) + T ^ 2 * (T * B) + T ^ 3 / 3 * A)) =
      ρ * (32 * (C + B + A / 3)) + q * T ^ 3 * (4 / 3 * (C + B + A / 3)) := by
    unfold ratio
    field_simp
  have r3 : q * T / 3 * (T * (T * C + T * B) + T * (T * B + T * A)) =
      q * T ^ 3 * ((C + 2 * B + A) / 3) := by ring
  have m1 := mul_le_mul_of_nonneg_left j1 hρ
  have m2 := mul_le_mul_of_nonneg_left j2 (show 0 ≤ q * T ^ 3 by positivity)
  linarith

theorem ratio_pos {q T ρ : ℝ} (hq : 0 < q) (hT : 0 < T) (hρ : 0 ≤ ρ) : 0 < ratio q T ρ := by
  unfold ratio
  positivity

/-- The share of an old error that is left after a scan. -/
noncomputable def keep (q T ρ : ℝ) : ℝ := 2 * ratio q T ρ / (2 * ratio q T ρ + 1)

theorem track_err {q T ρ c : ℝ} (hq : 0 < q) (hT : 0 < T) (hρ : 0 ≤ ρ) {g : Gauss 4}
    (hP : g.P.PosDef) (hg : Sharp q T ρ g) {s : Step} (hR : s.z.P.PosDef) {X : Fin 4 → ℝ}
    (hc : 2 * (s.y ⬝ᵥ cvQ q T *ᵥ s.y) + (s.z.x - posH *ᵥ move q T X s) ⬝ᵥ s.z.P⁻¹ *ᵥ
        (s.z.x - posH *ᵥ move q T X s) ≤ c) :
    err (track q T g s) (move q T X s) ≤ keep q T ρ * err g X + c := by
  have hκ := ratio_pos hq hT hρ
  have hQ := (C43_cv_noise q T).1 hq.le hT.le
  have h1 := see_err (pred_posDef hq.le hT.le hP) hR s.pD (move q T X s)
    (g := linearUpdate (cvF T) (cvQ q T) g)
  have h2 := pred_err hP hQ (pred_posDef hq.le hT.le hP) (α := 1 + 1 / (2 * ratio q T ρ)) (by positivity)
    (β := 1 / 2) (by norm_num) (by
      intro v
      have h := sharp_ratio hq hT hρ hg v
      rw [add_mulVec, dotProduct_add]
      have : 1 / (2 * ratio q T ρ) * (v ⬝ᵥ (cvF T * g.P * (cvF T)ᵀ) *ᵥ v) ≤
          1 / 2 * (v ⬝ᵥ cvQ q T *ᵥ v) := by
        rw [one_div, inv_mul_le_iff₀ (by positivity)]
        linarith
      linarith) (X - g.x) s.y
  have h3 : err (linearUpdate (cvF T) (cvQ q T) g) (move q T X s) ≤
      keep q T ρ * err g X + 2 * (s.y ⬝ᵥ cvQ q T *ᵥ s.y) := by
    unfold err move
    rw [pred_diff]
    refine h2.trans (le_of_eq ?_)
    unfold keep
    field_simp
  change err (correct posH s.pD s.z (linearUpdate (cvF T) (cvQ q T) g)) (move q T X s) ≤ _
  linarith

theorem keep_bounds {q T ρ : ℝ} (hq : 0 < q) (hT : 0 < T) (hρ : 0 ≤ ρ) :
    0 ≤ keep q T ρ ∧ keep q T ρ < 1 ∧ keep q T ρ * (2 * ratio q T ρ + 1) = 2 * ratio q T ρ := by
  have hκ := ratio_pos hq hT hρ
  unfold keep
  refine ⟨by positivity, (div_lt_one (by positivity)).2 (by linarith), ?_⟩
  exact div_mul_cancel₀ _ (by positivity)

theorem track_run {q T ρ c : ℝ} (hq : 0 < q) (hT : 0 < T) (hρ : 0 ≤ ρ) :
    ∀ {l : List Step} {g : Gauss 4} {X : Fin 4 → ℝ}, g.P.PosDef → Sharp q T ρ g → Calm q T ρ c X l →
    (l.foldl (track q T) g).P.PosDef ∧ Sharp q T ρ (l.foldl (track q T) g) ∧
    err (l.foldl (track q T) g) (l.foldl (move q T) X) ≤
      keep q T ρ ^ l.length * err g X + c * ((1 - keep q T ρ ^ l.length) * (2 * ratio q T ρ + 1)) := by
  intro l
  induction l with
  | nil =>
    intro g X hP hg _
    refine ⟨hP, hg, ?_⟩
    simp
  | cons s l ih =>
    intro g X hP hg ⟨hR, hz, hn, hl⟩
    have hP' := track_posDef hq.le hT.le hP hR
    have hg' := track_sharp hq.le hT hP (sharp_position hg) hR hz
    obtain ⟨a, b, h⟩ := ih hP' hg' hl
    refine ⟨a, b, h.trans ?_⟩
    obtain ⟨k0, k1, k2⟩ := keep_bounds hq hT hρ
    have h1 := track_err hq hT hρ hP hg hR hn
    have h2 := mul_le_mul_of_nonneg_left h1 (pow_nonneg k0 l.length)
    rw [List.length_cons, pow_succ]
    linear_combination h2 + keep q T ρ ^ l.length * c * k2

/-- C112: when an object is reported every `T`, its component forgets: after `n` further reports, no more than
the share `keepⁿ` of the error after the first one is left, and the squared error of the position, in every direction,
is at most the variance `ρ` of a report times what is left and `2 ratio + 1` times the cost of one step. -/
theorem C112_forgets {q T ρ c : ℝ} (hq : 0 < q) (hT : 0 < T) (hρ : 0 ≤ ρ) (hc : 0 ≤ c) {g : Gauss 4}
    (hP : g.P.PosDef) (hg : ∀ p, dir p 0 ⬝ᵥ g.P *ᵥ dir p 0 ≤ ρ * (p ⬝ᵥ p)) {X : Fin 4 → ℝ} {s : Step}
    {l : List Step} (hn : Calm q T ρ c X (s :: l)) :
    (∀ p, (dir p 0 ⬝ᵥ ((s :: l).foldl (move q T) X - ((s :: l).foldl (track q T) g).x)) ^ 2 ≤
      ρ * (p ⬝ᵥ p) * (keep q T ρ ^ l.length * (err g X + c) + c * (2 * ratio q T ρ + 1))) ∧
    (∀ u, (dir 0 u ⬝ᵥ ((s :: l).foldl (move q T) X - ((s :: l).foldl (track q T) g).x)) ^ 2 ≤
      (2 * ρ / T ^ 2 + q * T / 3) * (u ⬝ᵥ u) *
        (keep q T ρ ^ l.length * (err g X + c) + c * (2 * ratio q T ρ + 1))) := by
  obtain ⟨hR, hz, hcost, hl⟩ := hn
  have hP1 := track_posDef hq.le hT.le hP hR
  have hg1 := track_sharp hq.le hT hP hg hR hz
  obtain ⟨hP2, hg2, h⟩ := track_run hq hT hρ hP1 hg1 hl
  obtain ⟨k0, k1, k2⟩ := keep_bounds hq hT hρ
  have hκ := ratio_pos hq hT hρ
  have hQ := (C43_cv_noise q T).1 hq.le hT.le
  have h1 : err (track q T g s) (move q T X s) ≤ err g X + c := by
    have a1 := see_err (pred_posDef hq.le hT.le hP) hR s.pD (move q T X s)
      (g := linearUpdate (cvF T) (cvQ q T) g)
    have a2 := pred_err hP hQ (pred_posDef hq.le hT.le hP) (α := 1) (by norm_num)
      (β := 1) (by norm_num) (by intro v; rw [add_mulVec, dotProduct_add]; linarith) (X - g.x) s.y
    rw [div_one, div_one] at a2
    have a3 : err (linearUpdate (cvF T) (cvQ q T) g) (move q T X s) ≤
        err g X + s.y ⬝ᵥ cvQ q T *ᵥ s.y := by
      unfold err move
      rw [pred_diff]
      exact a2
    have a4 : 0 ≤ s.y ⬝ᵥ cvQ q T *ᵥ s.y := by simpa using hQ.dotProduct_mulVec_nonneg s.y
    change err (correct posH s.pD s.z (linearUpdate (cvF T) (cvQ q T) g)) (move q T X s) ≤ _
    linarith
  have hk : 0 ≤ keep q T ρ ^ l.length := pow_nonneg k0 _
  have h2 : err (l.foldl (track q T) (track q T g s)) (l.foldl (move q T) (move q T X s)) ≤
      keep q T ρ ^ l.length * (err g X + c) + c * (2 * ratio q T ρ + 1) := by
    have b1 := mul_le_mul_of_nonneg_left h1 hk
    have b2 : c * ((1 - keep q T ρ ^ l.length) * (2 * ratio q T ρ + 1)) ≤ c * (2 * ratio q T ρ + 1) := by
      have : 0 ≤ c * (2 * ratio q T ρ + 1) * keep q T ρ ^ l.length := by positivity
      linear_combination this
    linarith
  have h0 : 0 ≤ err (l.foldl (track q T) (track q T g s)) (l.foldl (move q T) (move q T X s)) := by
    simpa only [err, star_trivial] using hP2.inv.posSemidef.dotProduct_mulVec_nonneg
      (l.foldl (move q T) (move q T X s) - (l.foldl (track q T) (track q T g s)).x)
  have hsq : ∀ v : Fin 2 → ℝ, 0 ≤ v ⬝ᵥ v := fun v => by
    simpa only [star_trivial] using dotProduct_star_self_nonneg v
  simp only [List.foldl_cons]
  constructor
  · intro p
    exact (cauchy hP2 (dir p 0) _).trans ((mul_le_mul_of_nonneg_right (sharp_position hg2 p) h0).trans
      (mul_le_mul_of_nonneg_left h2 (mul_nonneg hρ (hsq p))))
  · intro u
    have h3 := hg2 0 u
    have e : ρ * ((0 + (1 / T) • u) ⬝ᵥ (0 + (1 / T) • u)) + ρ * (u ⬝ᵥ u) / T ^ 2 +
        q * T / 3 * (u ⬝ᵥ u) = (2 * ρ / T ^ 2 + q * T / 3) * (u ⬝ᵥ u) := by
      simp only [zero_add, dotProduct_smul, smul_dotProduct, smul_eq_mul]
      field_simp
      ring
    rw [e] at h3
    exact (cauchy hP2 (dir 0 u) _).trans ((mul_le_mul_of_nonneg_right h3 h0).trans
      (mul_le_mul_of_nonneg_left h2 (mul_nonneg (by positivity) (hsq u))))

/-- The component after `n` reports, `models.hpp:15-45`, `gaussian.hpp:30-42`. -/
noncomputable def trackN (q T : ℝ) (pD : ℕ → ℝ) (z : ℕ → Report 2) (g : Gauss 4) : ℕ → Gauss 4
  | 0 => g
  | n + 1 => correct posH (pD n) (z n) (linearUpdate (cvF T) (cvQ q T) (trackN q T pD z g n))

/-- C112: when an object moves with a constant velocity and its position is reported every `T` without error,
the estimate of the component converges to its position and velocity, whatever the first estimate was. -/
theorem C112_converges {q T ρ : ℝ} (hq : 0 < q) (hT : 0 < T) (hρ : 0 ≤ ρ) {g : Gauss 4}
    (hP : g.P.PosDef) {X : Fin 4 → ℝ} {pD : ℕ → ℝ} {z : ℕ → Report 2} (hR : ∀ n, (z n).P.PosDef)
    (hz : ∀ n p, p ⬝ᵥ (z n).P *ᵥ p ≤ ρ * (p ⬝ᵥ p))
    (hx : ∀ n, (z n).x = posH *ᵥ (cvF ((n + 1 : ℕ) * T) *ᵥ X)) :
    Filter.Tendsto (fun n => (trackN q T pD z g n).x - cvF (n * T) *ᵥ X) Filter.atTop (nhds 0) := by
  have hQ := (C43_cv_noise q T).1 hq.le hT.le
  set Y : ℕ → Fin 4 → ℝ := fun n => cvF (n * T) *ᵥ X with hY
  set G : ℕ → Gauss 4 := trackN q T pD z g with hG
  set st : ℕ → Step := fun n => ⟨0, pD n, z n⟩ with hst
  have hGs : ∀ n, G (n + 1) = track q T (G n) (st n) := fun n => rfl
  have hYs : ∀ n, Y (n + 1) = move q T (Y n) (st n) := by
    intro n
    change cvF ((n + 1 : ℕ) * T) *ᵥ X = cvF T *ᵥ (cvF (n * T) *ᵥ X) + cvQ q T *ᵥ 0
    rw [mulVec_mulVec, cvF_mul, mulVec_zero, add_zero]
    congr 2
    push_cast
    ring
  have hPn : ∀ n, (G n).P.PosDef := by
    intro n
    induction n with
    | zero => exact hP
    | succ n ih =>
      rw [hGs]
      exact track_posDef hq.le hT.le ih (hR n)
  have hpos : ∀ n p, dir p 0 ⬝ᵥ (G (n + 1)).P *ᵥ dir p 0 ≤ ρ * (p ⬝ᵥ p) := fun n p =>
    (see_position (pred_posDef hq.le hT.le (hPn n)) (hR n) (pD n) p
      (g := linearUpdate (cvF T) (cvQ q T) (G n))).trans (hz n p)
  have hsh : ∀ n, Sharp q T ρ (G (n + 2)) := fun n => by
    rw [hGs]
    exact track_sharp hq.le hT (hPn (n + 1)) (hpos n) (hR (n + 1)) (hz (n + 1))
  obtain ⟨k0, k1, _⟩ := keep_bounds hq hT hρ
  have herr : ∀ n, err (G (n + 2)) (Y (n + 2)) ≤ keep q T ρ ^ n * err (G 2) (Y 2) := by
    intro n
    induction n with
    | zero => simp
    | succ n ih =>
      have h := track_err (c := 0) hq hT hρ (hPn (n + 2)) (hsh n) (s := st (n + 2)) (hR (n + 2))
        (X := Y (n + 2)) (by
          rw [← hYs]
          have : (z (n + 2)).x - posH *ᵥ Y (n + 3) = 0 := by
            rw [hx (n + 2), sub_self]
          simp [hst, this])
      rw [← hGs, ← hYs, add_zero] at h
      refine h.trans ?_
      rw [pow_succ]
      have := mul_le_mul_of_nonneg_left ih k0
      linarith
  have hlim : Filter.Tendsto (fun n => keep q T ρ ^ n * err (G 2) (Y 2)) Filter.atTop (nhds 0) := by
    have := (tendsto_pow_atTop_nhds_zero_of_lt_one k0 k1).mul_const (err (G 2) (Y 2))
    rwa [zero_mul] at this
  rw [← Filter.tendsto_add_atTop_iff_nat 2, tendsto_pi_nhds]
  intro i
  obtain ⟨p, u, hi⟩ : ∃ p u, ∀ v : Fin 4 → ℝ, v i = dir p u ⬝ᵥ v := by
    fin_cases i
    · exact ⟨![1, 0], 0, fun v => by simp [dir, dotProduct, Fin.sum_univ_four]⟩
    · exact ⟨![0, 1], 0, fun v => by simp [dir, dotProduct, Fin.sum_univ_four]⟩
    · exact ⟨0, ![1, 0], fun v => by simp [dir, dotProduct, Fin.sum_univ_four]⟩
    · exact ⟨0, ![0, 1], fun v => by simp [dir, dotProduct, Fin.sum_univ_four]⟩
  set K := ρ * ((p + (1 / T) • u) ⬝ᵥ (p + (1 / T) • u)) + ρ * (u ⬝ᵥ u) / T ^ 2 + q * T / 3 * (u ⬝ᵥ u)
  have hb : ∀ n, (((G (n + 2)).x - Y (n + 2)) i) ^ 2 ≤ K * (keep q T ρ ^ n * err (G 2) (Y 2)) := by
    intro n
    have h0 : 0 ≤ err (G (n + 2)) (Y (n + 2)) := by
      simpa only [err, star_trivial] using (hPn (n + 2)).inv.posSemidef.dotProduct_mulVec_nonneg
        (Y (n + 2) - (G (n + 2)).x)
    have hA : 0 ≤ dir p u ⬝ᵥ (G (n + 2)).P *ᵥ dir p u := by
      simpa only [star_trivial] using (hPn (n + 2)).posSemidef.dotProduct_mulVec_nonneg (dir p u)
    have hc := cauchy (hPn (n + 2)) (dir p u) (Y (n + 2) - (G (n + 2)).x)
    rw [← hi] at hc
    have : (((G (n + 2)).x - Y (n + 2)) i) ^ 2 = ((Y (n + 2) - (G (n + 2)).x) i) ^ 2 := by
      simp only [Pi.sub_apply]
      ring
    rw [this]
    have hS := hsh n p u
    exact hc.trans ((mul_le_mul_of_nonneg_right hS h0).trans
      (mul_le_mul_of_nonneg_left (herr n) (hA.trans hS)))
  have hlim2 : Filter.Tendsto (fun n => Real.sqrt (K * (keep q T ρ ^ n * err (G 2) (Y 2))))
      Filter.atTop (nhds 0) := by
    have := (Real.continuous_sqrt.tendsto _).comp (hlim.const_mul K)
    rw [mul_zero, Real.sqrt_zero] at this
    exact this
  refine squeeze_zero_norm (fun n => ?_) hlim2
  rw [Real.norm_eq_abs]
  exact Real.abs_le_sqrt (hb n)

/-- An object that moves one unit north and two east per time unit. -/
noncomputable def exX : Fin 4 → ℝ := ![3, 4, 1, 2]

/-- Exact reports of its position with unit covariance. -/
noncomputable def exZ (n : ℕ) : Report 2 := ⟨posH *ᵥ (cvF ((n + 1 : ℕ) * 1) *ᵥ exX), 1, 1 / 10⟩

example := C112_converges (q := 1) (T := 1) (ρ := 1) (by norm_num) (by norm_num) (by norm_num)
  exNew_posDef (X := exX) (pD := fun _ => 9 / 10) (z := exZ) (fun _ => PosDef.one)
  (fun n p => by simp [exZ]) (fun n => rfl)

/-- Two reports, the first half a unit too far north. -/
noncomputable def exSteps : List Step := [⟨0, 9 / 10, ⟨![4.5, 6], 1, 1⟩⟩, ⟨0, 9 / 10, ⟨![5, 8], 1, 1⟩⟩]

theorem exCalm : Calm 1 1 1 (1 / 4) exX exSteps := by
  have e1 : ∀ a b, move 1 1 exX ⟨0, a, b⟩ = ![4, 6, 1, 2] := by
    intro a b
    unfold move exX
    rw [mulVec_zero, add_zero]
    ext i
    fin_cases i <;> simp [cvF, mulVec, dotProduct, Fin.sum_univ_four] <;> norm_num
  have e2 : ∀ a b, move 1 1 ![4, 6, 1, 2] ⟨0, a, b⟩ = ![5, 8, 1, 2] := by
    intro a b
    unfold move
    rw [mulVec_zero, add_zero]
    ext i
    fin_cases i <;> simp [cvF, mulVec, dotProduct, Fin.sum_univ_four] <;> norm_num
  refine ⟨PosDef.one, fun p => by simp, ?_, PosDef.one, fun p => by simp, ?_, trivial⟩
  · rw [e1]
    simp [posH, dotProduct, mulVec, Fin.sum_univ_two, Fin.sum_univ_four]
    norm_num
  · rw [e1, e2]
    simp [posH, dotProduct, mulVec, Fin.sum_univ_two, Fin.sum_univ_four]

example := C112_forgets (q := 1) (T := 1) (ρ := 1) (c := 1 / 4) (by norm_num) (by norm_num) (by norm_num)
  (by norm_num) exNew_posDef (fun p => by
    simp [exNew, init1, exRep, dir, dotProduct, mulVec, Fin.sum_univ_two, Fin.sum_univ_four])
  (X := exX) exCalm

theorem exMoves : Moves 1 exX ([Ev.pred 1] ++ [Ev.see (9 / 10) ⟨![4.5, 6], 1, 1⟩]) (1 / 4)
    ![4, 6, 1, 2] := by
  have e1 : cvF 1 *ᵥ exX + cvQ 1 1 *ᵥ 0 = ![4, 6, 1, 2] := by
    unfold exX
    rw [mulVec_zero, add_zero]
    ext i
    fin_cases i <;> simp [cvF, mulVec, dotProduct, Fin.sum_univ_four] <;> norm_num
  have h := Moves.pred (q := 1) (X := exX) 1 0 (.see (9 / 10) ⟨![4.5, 6], 1, 1⟩ (.nil _))
  rw [e1] at h
  have e2 : (0 : Fin 4 → ℝ) ⬝ᵥ cvQ 1 1 *ᵥ 0 + ((![4.5, 6] - posH *ᵥ ![4, 6, 1, 2]) ⬝ᵥ
      (1 : Matrix (Fin 2) (Fin 2) ℝ)⁻¹ *ᵥ (![4.5, 6] - posH *ᵥ ![4, 6, 1, 2]) + 0) = 1 / 4 := by
    simp [posH, dotProduct, mulVec, Fin.sum_univ_two, Fin.sum_univ_four]
    norm_num
  rw [← e2]
  exact h

example (p : Fin 2 → ℝ) := C112_position (by norm_num) exMoves exNew_posDef (by simp [Ev.Ok])
  PosDef.one p

end Verif.Kalman
