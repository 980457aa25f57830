import Verif.MurtyF.Model
import Verif.LapF.Exact

/-! # With exact operations the rounded model is the exact model -/

namespace Verif.MurtyF

open Verif.Lap Verif.LapF Verif.Murty

variable {n m r c : Nat}

theorem partitionWith_exact (s : Node n m) (i j : Nat) :
    partitionWith Arith.exact s i j = Murty.partitionWith s i j := by
  obtain ⟨r, c, C, u, v, cost, bound, solved, sol, res, rmap, cmap⟩ := s
  cases r with
  | zero => rfl
  | succ r =>
    cases c with
    | zero => rfl
    | succ c => simp only [partitionWith, Murty.partitionWith, exact_add]

theorem partitionWithout_exact (s : Node n m) (i j : Nat) (d : XR) :
    partitionWithout Arith.exact s i j d = Murty.partitionWithout s i j d := by
  unfold partitionWithout Murty.partitionWithout
  rw [exact_add]

theorem fill_exact (C : Cost r c) (res : Fin r → Option (Fin c)) (rmap : Fin r → Fin n)
    (cmap : Fin c → Fin m) (l : List (Fin r)) : ∀ sol cost,
    fill Arith.exact C res rmap cmap l sol cost = Murty.fill C res rmap cmap l sol cost := by
  induction l with
  | nil => intros; rfl
  | cons i l ih =>
    intro sol cost
    simp only [fill, Murty.fill, exact_add, ih]
    rfl

theorem solve_exact (fuel : Nat) (s : Node n m) :
    solve Arith.exact fuel s = Murty.solve fuel s := by
  unfold solve Murty.solve
  rw [lap_exact]
  simp only [fill_exact]
  rfl

theorem dualOf_exact (s : Node n m) : dualOf Arith.exact s = Murty.dualOf s := by
  funext i j
  unfold dualOf Murty.dualOf
  rw [exact_sub]

theorem duals_exact (s : Node n m) (l : List (Fin s.r)) :
    duals Arith.exact s l = Murty.duals s l := by
  induction l with
  | nil => rfl
  | cons i l ih =>
    simp only [duals, Murty.duals, ih, dualOf_exact]
    rfl

theorem parts_exact (l : List (DualEntry r c)) : ∀ before (node : Node n m),
    parts Arith.exact before l node = Murty.parts before l node := by
  induction l with
  | nil => intros; rfl
  | cons p l ih =>
    intro before node
    simp only [parts, Murty.parts, partitionWith_exact, partitionWithout_exact, ih]
    rfl

theorem drawTop_exact (pick : List (Node n m) → Nat) (fuel k : Nat) : ∀ Q,
    drawTop Arith.exact pick fuel k Q = Murty.drawTop pick fuel k Q := by
  induction k with
  | zero => intros; rfl
  | succ k ih =>
    intro Q
    simp only [drawTop, Murty.drawTop, solve_exact, ih]
    rfl

theorem draw_exact (pick : List (Node n m) → Nat) (fuel : Nat) (M : State n m) :
    draw Arith.exact pick fuel M = Murty.draw pick fuel M := by
  unfold draw Murty.draw sortByDual Murty.sortByDual
  simp only [drawTop_exact, duals_exact, parts_exact, exact_add]
  rfl

theorem init_exact (C : Cost n m) :
    init Arith.exact (fun a b => XR.fin (a * b)) C = Murty.init C := by
  unfold init Murty.init
  rw [exact_sub]
  rfl

/-- With exact operations the rounded model is the model of C17–C20. -/
theorem draws_exact (pick : List (Node n m) → Nat) (fuel k : Nat) : ∀ M : State n m,
    draws Arith.exact pick fuel k M = Murty.draws pick fuel k M := by
  induction k with
  | zero => intros; rfl
  | succ k ih =>
    intro M
    simp only [draws, Murty.draws, draw_exact, ih]
    rfl

end Verif.MurtyF
