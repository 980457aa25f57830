import Verif.LapF.Model

/-! # With exact operations the rounded model is the exact model -/

namespace Verif.LapF

open Verif.Lap

variable {n m : Nat}

theorem exact_sub : Arith.exact.sub = XR.sub := by
  funext x y
  cases x <;> cases y <;> rfl

theorem exact_add : Arith.exact.add = XR.add := by
  funext x y
  cases x <;> cases y <;> rfl

theorem findUmins_exact : findUmins (m := m) Arith.exact = Lap.findUmins := by
  funext crow v
  unfold findUmins Lap.findUmins
  rw [exact_sub]
  rfl

theorem arrStep_exact (C : Cost n m) (i : Fin n) (s : St n m) :
    arrStep Arith.exact C i s = Lap.arrStep Lap.findUmins C i s := by
  unfold arrStep Lap.arrStep
  rw [exact_sub, findUmins_exact]
  rfl

theorem arrLoop_exact (C : Cost n m) (pnf f : Nat) :
    ∀ k nf free s, arrLoop Arith.exact C pnf f k nf free s =
      Lap.arrLoop Lap.findUmins C pnf f k nf free s := by
  induction f with
  | zero => intros; rfl
  | succ f ih =>
    intro k nf free s
    simp only [arrLoop, Lap.arrLoop, arrStep_exact, ih]
    rfl

theorem relax_exact (crow v : Fin m → XR) (h mn : XR) (colsol : Fin m → Option (Fin n))
    (i : Fin n) (r : Nat) : ∀ k s, relax Arith.exact crow v h mn colsol i r k s =
      Lap.relax crow v h mn colsol i r k s := by
  induction r with
  | zero => intros; rfl
  | succ r ih =>
    intro k s
    simp only [relax, Lap.relax, exact_sub, ih]
    rfl

theorem scanCol_exact (C : Cost n m) (v : Fin m → XR) (colsol : Fin m → Option (Fin n))
    (s : Dij n m) : scanCol Arith.exact C v colsol s = Lap.scanCol C v colsol s := by
  unfold scanCol Lap.scanCol
  simp only [exact_sub, relax_exact]
  rfl

theorem dijkstra_exact (C : Cost n m) (v : Fin m → XR) (colsol : Fin m → Option (Fin n))
    (f : Nat) : ∀ s, dijkstra Arith.exact C v colsol f s = Lap.dijkstra C v colsol f s := by
  induction f with
  | zero => intros; rfl
  | succ f ih =>
    intro s
    simp only [dijkstra, Lap.dijkstra, scanCol_exact, ih]
    rfl

theorem augment_exact (C : Cost n m) (fuel : Nat) (f : Fin n) (s : St n m) :
    augment Arith.exact C fuel f s = Lap.augment C fuel f s := by
  unfold augment Lap.augment updatePrices Lap.updatePrices
  simp only [exact_sub, exact_add, dijkstra_exact]
  rfl

theorem augmentAll_exact (C : Cost n m) (fuel : Nat) (fs : List (Fin n)) :
    ∀ s, augmentAll Arith.exact C fuel fs s = Lap.augmentAll C fuel fs s := by
  induction fs with
  | nil => intros; rfl
  | cons f fs ih =>
    intro s
    simp only [augmentAll, Lap.augmentAll, augment_exact]
    congr 1
    funext s'
    exact ih s'

theorem finish_exact (C : Cost n m) (u0 : Fin n → XR) (s : St n m) :
    finish Arith.exact C u0 s = Lap.finish C u0 s := by
  unfold finish Lap.finish
  simp only [exact_sub, exact_add]
  rfl

theorem rlap_exact (C : Cost n m) (fuel : Nat) (u0 : Fin n → XR) (v0 : Fin m → XR) :
    rlap Arith.exact C fuel u0 v0 = Lap.rlap C fuel u0 v0 := by
  unfold rlap Lap.rlap Lap.rlapWith
  have : finish Arith.exact C u0 = Lap.finish C u0 := funext (finish_exact C u0)
  simp only [arrLoop_exact, augmentAll_exact, this]
  rfl

/-- With exact operations, the model of this directory is the model of `Verif/Lap`. -/
theorem lap_exact (C : Cost n m) (fuel : Nat) : lap Arith.exact C fuel = Lap.lap C fuel := by
  unfold lap Lap.lap Lap.lapWith
  simp only [rlap_exact]
  rfl

end Verif.LapF
