import Verif.Lap.Avx
import Verif.Murty.Apps
import Verif.Cluster.CCModel
import Verif.RTree.Model
import Verif.BBox.Props
import Verif.Metric.Order
import Verif.CF.Props
import Verif.Kalman.Props

/-!
# The project's unit tests, run on the model

The expectations of `tests/*.cpp` that concern modelled code, with the same inputs.  They are tests
of the model and not proofs: they show that the definitions give the values the authors observed,
including which of several optimal assignments is returned and in which order components come.
-/

namespace Verif.Check

open Verif.Lap Verif.Lap.XR Verif.Murty Matrix

/-! ## `tests/test_hypgen.cpp` -/

/-- A literal matrix; `none` is `lap::inf` (`tests/test_hypgen.cpp:28-29`). -/
def mat (n m : Nat) (l : List (List (Option ℚ))) : Cost n m := fun i j =>
  match (l.getD i []).getD j none with
  | some q => fin q
  | none => pinf

/-- `MURTY_COST`, `tests/test_hypgen.cpp:8-18`. -/
def murtyCost : List (List (Option ℚ)) :=
  [[some 7, some 51, some 52, some 87, some 38, some 60, some 74, some 66, some 0, some 20],
   [some 50, some 12, some 0, some 64, some 8, some 53, some 0, some 46, some 76, some 42],
   [some 27, some 77, some 0, some 18, some 22, some 48, some 44, some 13, some 0, some 57],
   [some 62, some 0, some 3, some 8, some 5, some 6, some 14, some 0, some 26, some 39],
   [some 0, some 97, some 0, some 5, some 13, some 0, some 41, some 31, some 62, some 48],
   [some 79, some 68, some 0, some 0, some 15, some 12, some 17, some 47, some 35, some 43],
   [some 76, some 99, some 48, some 27, some 34, some 0, some 0, some 0, some 28, some 0],
   [some 0, some 20, some 9, some 27, some 46, some 15, some 84, some 19, some 3, some 24],
   [some 56, some 10, some 45, some 39, some 0, some 93, some 67, some 79, some 19, some 38],
   [some 27, some 0, some 39, some 53, some 46, some 24, some 69, some 46, some 23, some 1]]

/-- `MURTY_COST2`, `tests/test_hypgen.cpp:21-24`. -/
def murtyCost2 : List (List (Option ℚ)) :=
  [[some 0, some 0, some 46], [some 0, some 44, some 13], [some 3, some 14, some 0]]

/-- `MURTY_HARD`, `tests/test_hypgen.cpp:28-33`. -/
def murtyHard : Cost 4 10 := mat 4 10
  [[some (-1.92591), some (-2.88444), none, some 30000, some 30000, some 30000, some 17.8891,
    some 30000, some 30000, some 30000],
   [some (-1.92591), some (-2.88444), some 30000, none, some 30000, some 30000, some 30000,
    some 17.8891, some 30000, some 30000],
   [some (-0.0512712), some (-0.0512712), some 30000, some 30000, none, some 30000, some 30000,
    some 30000, some 0.287682, some 30000],
   [some (-0.0512712), some (-0.0512712), some 30000, some 30000, some 30000, none, some 30000,
    some 30000, some 30000, some 30000]]

/-- `lap(C, res, u, v)` as the tests call it: the returned flag and `res`
(`tests/test_hypgen.cpp:36-43`). -/
def lapRes {n m : Nat} (C : Cost n m) : Option (Bool × List (Option Nat)) :=
  (lap C 200).map fun r => (r.1, (List.finRange n).map fun i => (r.2.rowsol i).map Fin.val)

/-- The same with the vectorised search (`rlapjv.h:256`). -/
def lapAvxRes {n m : Nat} (C : Cost n m) : Option (Bool × List (Option Nat)) :=
  (lapAvx C 200).map fun r => (r.1, (List.finRange n).map fun i => (r.2.rowsol i).map Fin.val)

/-- `SingleLAP`. -/
example : lapRes (mat 10 10 murtyCost) =
    some (true, [8, 6, 2, 7, 5, 3, 9, 0, 4, 1].map some) := by decide +kernel
example : lapAvxRes (mat 10 10 murtyCost) =
    some (true, [8, 6, 2, 7, 5, 3, 9, 0, 4, 1].map some) := by decide +kernel

/-- `SmallSingle`. -/
example : lapRes (mat 3 3 murtyCost2) = some (true, [1, 0, 2].map some) := by decide +kernel

/-- `SingleLAP_Asym`. -/
example : lapRes (mat 5 10 murtyCost) = some (true, [8, 6, 2, 1, 0].map some) := by decide +kernel
example : lapAvxRes (mat 5 10 murtyCost) = some (true, [8, 6, 2, 1, 0].map some) := by
  decide +kernel

/-- `SingleLAP_Hard`: `6 1 8 0` and `1 7 8 0` cost the same; the test expects the first. -/
example : lapRes (fun i j => (murtyHard i j).sub (fin (-2.88444))) =
    some (true, [6, 1, 8, 0].map some) := by decide +kernel
example : lapAvxRes (fun i j => (murtyHard i j).sub (fin (-2.88444))) =
    some (true, [6, 1, 8, 0].map some) := by decide +kernel

/-- `std::priority_queue::top` with the order of `murty.hpp:254-262`: the first entry that no entry
before or after it beats. -/
def top {n m : Nat} (Q : List (Node n m)) : Nat :=
  (List.range Q.length).foldl (fun b i =>
    match Q[b]?, Q[i]? with
    | some x, some y => if worse x y then i else b
    | _, _ => b) 0

/-- `while (m.draw(res, cost))` of the tests (`tests/test_hypgen.cpp:148-159`), at most `k` rounds:
the assignments in the order drawn; `none` if a cost is less than the one before. -/
def drain {n m : Nat} : Nat → State n m → XR → Option (List (List (Option Nat)))
  | 0, _, _ => none
  | k + 1, M, last =>
    match draw top 200 M with
    | none => none
    | some (none, _) => some []
    | some (some (s, c), M') =>
      if c.lt last then none
      else (drain k M' c).map (((List.finRange n).map fun i => (s i).map Fin.val) :: ·)

/-- The first draw with its cost, as in `tests/test_hypgen.cpp:92-103`. -/
def first {n m : Nat} (C : Cost n m) : Option (Option (List (Option Nat) × XR)) :=
  (init C).bind fun M => (draw top 200 M).map fun r =>
    r.1.map fun x => ((List.finRange n).map fun i => (x.1 i).map Fin.val, x.2)

/-- `MiniMurty`. -/
example : first (mat 1 1 [[some 0]]) = some (some ([some 0], fin 0)) := by decide +kernel

/-- `HardSingle`. -/
example : first murtyHard = some (some ([6, 1, 8, 0].map some,
    fin (17.8891 - 2.88444 + 0.287682 - 0.0512712))) := by decide +kernel

/-- `SingleMurty`. -/
example : first (mat 10 10 murtyCost) =
    some (some ([8, 6, 2, 7, 5, 3, 9, 0, 4, 1].map some, fin 0)) := by decide +kernel

/-- `SmallMurty`: two draws. -/
example : (init (mat 1 3 [[some 2.14843, none, some 1.20397]])).bind (drain 10 · (fin 0)) =
    some [[some 2], [some 0]] := by decide +kernel

/-- `RectMurty`: 90 draws of non-decreasing cost. -/
example : ((init (mat 2 10 murtyCost)).bind (drain 100 · (fin 0))).map List.length = some 90 := by
  decide +kernel

/-- `FullMurty`: the number of draws is 7!, by `C96_programs`. -/
example : Nat.factorial 7 / Nat.factorial (7 - 7) = 5040 := by decide +kernel

/-- The assignments over finite entries of `MURTY_HARD`. -/
theorem hard_card : (Finset.univ.filter fun τ : Fin 4 → Fin 10 =>
    Function.Injective τ ∧ ∀ i, murtyHard i (τ i) ≠ pinf).card = 3333 := by decide +kernel

/-- `Hard`: 3333 draws succeed, by `C20_exhaustive`. -/
example {pick : List (Node 4 10) → Nat} (hp : PickOk pick) : ∃ M, init murtyHard = some M ∧
    ∀ k, ∃ F, ∀ fuel, F ≤ fuel → ∃ R, draws pick fuel k M = some R ∧
      ∀ i : Nat, i < k → (i < 3333 ↔ ∃ x, R[i]? = some (some x)) := by
  have hfin : ∀ i j, murtyHard i j ≠ pinf ↔ ∃ q, murtyHard i j = fin q := by
    intro i j
    unfold murtyHard mat
    split <;> simp
  have hC : CostOk murtyHard := by
    intro i j
    by_cases h : murtyHard i j = pinf
    · exact Or.inl h
    · exact Or.inr ((hfin i j).1 h)
  obtain ⟨M, h1, h2⟩ := C20_exhaustive hC (by decide) (by decide) (by decide) hp
    (Finset.univ.filter fun τ : Fin 4 → Fin 10 =>
      Function.Injective τ ∧ ∀ i, murtyHard i (τ i) ≠ pinf) (fun τ => by
        simp only [Finset.mem_filter, Finset.mem_univ, true_and, hfin])
  rw [hard_card] at h2
  refine ⟨M, h1, fun k => ?_⟩
  obtain ⟨F, h3⟩ := h2 k
  refine ⟨F, fun fuel hf => ?_⟩
  obtain ⟨R, h4, h5, _⟩ := h3 fuel hf
  exact ⟨R, h4, fun i hi => (h5 i hi).1⟩

/-! ## `tests/test_connectedcomponents.cpp` -/

/-- `InsertAndQuery`: components of 7 and 3 nodes, in this order. -/
example : (Cluster.components 20 (Cluster.ccBuild ((List.range 10).map Cluster.CCCall.init ++
    [.connect 0 [1, 2, 3, 4], .connect 4 [5, 6, 3, 4], .connect 7 [8, 9]]))).map
      (List.map List.length) = some [7, 3] := by decide +kernel

/-! ## `tests/test_bbox.cpp` -/

/-- The unit square of the tests, `tests/test_bbox.cpp:19-20`. -/
def unitBox : BBox.Box ℚ := ⟨(0, 1), (0, 0), (1, 0), (1, 1)⟩

/-- `Within`, `Without`, `Intersect`, `SwissCross` and `Disjoint`. -/
example : unitBox.within (0.5, 0.5) = true := by decide +kernel
example : unitBox.within (1.5, 1.5) = false := by decide +kernel
example : unitBox.intersects ⟨(0.5, 1.5), (0.5, 0.5), (1.5, 0.5), (1.5, 1.5)⟩ = true := by
  decide +kernel
example : (⟨(2, 6), (6, 1), (7, 4), (3, 8)⟩ : BBox.Box ℚ).intersects
    ⟨(4.5, 1), (7, 7), (6, 8), (3, 3)⟩ = true := by decide +kernel
example : unitBox.intersects ⟨(2.5, 2.5), (1.5, 1.5), (2.5, 1.5), (2.5, 2.5)⟩ = false := by
  decide +kernel

/-! ## `tests/test_targettree.cpp` -/

/-- Two targets at (0, 0) and (1, 1) with boxes of half width 2, `tests/test_targettree.cpp:14-15`;
the test's boxes come from unit covariances in metres. -/
def twoTargets : Option (RTree.Tree Nat) :=
  (RTree.insert ⟨-2, -2, 2, 2⟩ 0 RTree.empty).bind (RTree.insert ⟨-1, -1, 3, 3⟩ 1)

/-- The targets a query returns, in order (`targettree.hpp:72-81`). -/
def found (r : RTree.Rect) : Option (List Nat) :=
  twoTargets.bind fun t => (RTree.search (fun c d => (c ++ [d], true)) r [] t).map Prod.fst

/-- `InsertAndQuery` and `Query2`: both targets, in the order they were made. -/
example : found ⟨-1, -1, 1, 1⟩ = some [0, 1] := by decide +kernel
example : found ⟨-30000, -30000, 30000, 30000⟩ = some [0, 1] := by decide +kernel
example : found ⟨-3, -3, -3 / 2, -3 / 2⟩ = some [0] := by decide +kernel

/-! ## `tests/test_gaussian.cpp`, `tests/test_gm.cpp`, `tests/test_sensor.cpp` -/

/-- `GaussianTests.Correct`, `tests/test_gaussian.cpp:10-33`, and `GMTests.Correct`: half way to the
report, half the variance, the velocity as before. -/
example : (Kalman.correct Kalman.posH 1 ⟨![1, 1], 1, 1⟩ ⟨0, 1, 1⟩).x = ![1 / 2, 1 / 2, 0, 0] ∧
    (Kalman.correct Kalman.posH 1 ⟨![1, 1], 1, 1⟩ ⟨0, 1, 1⟩).P =
      Matrix.diagonal ![1 / 2, 1 / 2, 1, 1] := by
  have hH : Kalman.posH * (1 : Matrix (Fin 4) (Fin 4) ℝ) * Kalman.posHᵀ + 1 =
      (2 : ℝ) • (1 : Matrix (Fin 2) (Fin 2) ℝ) := by
    ext i j
    fin_cases i <;> fin_cases j <;>
      simp [Kalman.posH, Matrix.vecMul, dotProduct, Fin.sum_univ_succ] <;> norm_num
  have hD : Kalman.dinv Kalman.posH ⟨![1, 1], 1, 1⟩ ⟨0, 1, 1⟩ =
      (1 / 2 : ℝ) • (1 : Matrix (Fin 2) (Fin 2) ℝ) := by
    unfold Kalman.dinv
    rw [hH]
    apply Matrix.inv_eq_left_inv
    simp
  simp only [Kalman.correct, Kalman.gain, hD, Kalman.innov]
  constructor
  · funext i
    fin_cases i <;>
      simp [Kalman.posH, Matrix.mulVec, dotProduct, Fin.sum_univ_succ]
  · ext i j
    fin_cases i <;> fin_cases j <;>
      simp [Kalman.posH, Matrix.mul_apply, Fin.sum_univ_succ, Matrix.diagonal] <;> norm_num

/-- `SensorTests.Likelihood`, `tests/test_sensor.cpp:9-24`: `1/(2π)` and `exp(-1)/(2π)`. -/
example : Kalman.likelihood 0 (1 : Matrix (Fin 2) (Fin 2) ℝ) = 1 / (2 * Real.pi) ∧
    Kalman.likelihood ![1, 1] (1 : Matrix (Fin 2) (Fin 2) ℝ) = Real.exp (-1) / (2 * Real.pi) := by
  have h : Real.sqrt (1 / (2 * Real.pi) ^ 2) = 1 / (2 * Real.pi) := by
    rw [Real.sqrt_div zero_le_one, Real.sqrt_one, Real.sqrt_sq (by positivity)]
  unfold Kalman.likelihood
  rw [Matrix.det_one, h]
  refine ⟨by simp, ?_⟩
  have h2 : -(![(1 : ℝ), 1] ⬝ᵥ (1 : Matrix (Fin 2) (Fin 2) ℝ) *ᵥ ![1, 1]) * 0.5 = -1 := by
    simp [dotProduct, Fin.sum_univ_succ]; norm_num
  rw [h2, mul_one_div]

/-! ## `tests/test_cf.cpp` -/

/-- `nedrot0`, `nedrot_np`, `tests/test_cf.cpp:7-25`. -/
example : CF.nedrot 0 0 = !![0, 0, 1; 0, 1, 0; -1, 0, 0] := by
  simp [CF.nedrot, CF.sind, CF.cosd]
example : CF.nedrot 90 0 = !![-1, 0, 0; 0, 1, 0; 0, 0, -1] := by
  have h : (90 : ℝ) * Real.pi / 180 = Real.pi / 2 := by ring
  simp [CF.nedrot, CF.sind, CF.cosd, h]

/-- `nerot0`, `nerot_np`, `tests/test_cf.cpp:52-68`. -/
example : CF.nerot 0 0 = !![0, 0, 1; 0, 1, 0] := by
  simp [CF.nerot, CF.sind, CF.cosd]
example : CF.nerot 90 0 = !![-1, 0, 0; 0, 1, 0] := by
  have h : (90 : ℝ) * Real.pi / 180 = Real.pi / 2 := by ring
  simp [CF.nerot, CF.sind, CF.cosd, h]

/-! ## `tests/test_lmb.cpp` -/

/-- The assignments and the sums of `OSPA`, `tests/test_lmb.cpp:87-130`, `c = 1`, `p = 2`: no target
and 1 or 4 truths; then one target, which is at distance 0, 1, and (1, 0), (0, √2 cut off) of the
truths. -/
def ospaSum {M N : Nat} (D : Fin M → Fin N → ℚ) (c : ℚ) : Option ℚ :=
  (Metric.ospaAssign D c 200).map fun r => (∑ i, Metric.ospaMatrix D c i (r i) ^ 2) / (max M N : ℕ)

example : ospaSum (M := 0) (N := 1) (fun _ _ => 0) 1 = some 1 := by decide +kernel
example : ospaSum (M := 0) (N := 4) (fun _ _ => 0) 1 = some 1 := by decide +kernel
example : ospaSum (M := 1) (N := 1) ![![0]] 1 = some 0 := by decide +kernel
example : ospaSum (M := 1) (N := 1) ![![1]] 1 = some 1 := by decide +kernel
example : ospaSum (M := 1) (N := 2) ![![1, 0]] 1 = some (1 / 2) := by decide +kernel
example : ospaSum (M := 1) (N := 2) ![![0, 1]] 1 = some (1 / 2) := by decide +kernel
example : ospaSum (M := 1) (N := 0) (fun _ => Fin.elim0) 1 = some 1 := by decide +kernel

/-- The sums of `GOSPA`, `tests/test_lmb.cpp:132-175`, `c = 1`, `p = 1`. -/
def gospaSum {M N : Nat} (D : Fin M → Fin N → ℚ) (c : ℚ) : Option ℚ :=
  (Metric.gospaAssign D c id 200).map fun r => ∑ i, Metric.gospaMatrix D c id i (r i)

example : gospaSum (M := 0) (N := 1) (fun _ _ => 0) 1 = some (1 / 2) := by decide +kernel
example : gospaSum (M := 0) (N := 4) (fun _ _ => 0) 1 = some 2 := by decide +kernel
example : gospaSum (M := 1) (N := 1) ![![0]] 1 = some 0 := by decide +kernel
example : gospaSum (M := 1) (N := 1) ![![1]] 1 = some 1 := by decide +kernel
example : gospaSum (M := 1) (N := 2) ![![1, 0]] 1 = some (1 / 2) := by decide +kernel
example : gospaSum (M := 1) (N := 2) ![![0, 1]] 1 = some (1 / 2) := by decide +kernel
example : gospaSum (M := 1) (N := 0) (fun _ => Fin.elim0) 1 = some (1 / 2) := by decide +kernel

end Verif.Check
