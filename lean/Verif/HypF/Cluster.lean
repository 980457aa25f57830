import Verif.HypF.Exp

/-! # A cluster in `double` arithmetic -/

namespace Verif.HypF

open Verif.Lap Verif.LapF Verif.Murty XR

variable {M N : Nat}

/-- Error of the costs of the hypotheses of `M` targets and `N` reports (`cluster.hpp:91`), see
C79: finite costs are at most 2¹⁵. -/
def costErr (M N : Nat) : ℚ :=
  (2 * M + 2) * ((30 * ((N + 2 * M : Nat) : ℚ) + 6 * M + 60) * 2 ^ 15 / 2 ^ 52)

theorem costErr_nonneg (M N : Nat) : 0 ≤ costErr M N := by unfold costErr; positivity

theorem costErr_le (hM : M ≤ 30) (hN : N + 2 * M ≤ 2 ^ 16) : costErr M N ≤ 1 / 2 ^ 10 := by
  have h1 : (M : ℚ) ≤ 30 := by exact_mod_cast hM
  have h2 : ((N + 2 * M : Nat) : ℚ) ≤ 2 ^ 16 := by exact_mod_cast hN
  have h0 : (0:ℚ) ≤ M := Nat.cast_nonneg M
  have h3 : (0:ℚ) ≤ ((N + 2 * M : Nat) : ℚ) := Nat.cast_nonneg _
  unfold costErr
  generalize ((N + 2 * M : Nat) : ℚ) = m at *
  have h4 : (30 * m + 6 * (M:ℚ) + 60) ≤ 30 * 2 ^ 16 + 240 := by linarith
  calc (2 * (M:ℚ) + 2) * ((30 * m + 6 * M + 60) * 2 ^ 15 / 2 ^ 52)
      ≤ 62 * ((30 * 2 ^ 16 + 240) * 2 ^ 15 / 2 ^ 52) := by
        apply mul_le_mul (by linarith) _ (by positivity) (by norm_num)
        exact div_le_div_of_nonneg_right (mul_le_mul_of_nonneg_right h4 (by norm_num)) (by norm_num)
    _ ≤ 1 / 2 ^ 10 := by norm_num

/-- The computed weight of a hypothesis whose cost has a small error. -/
theorem weight_err {ex : ℚ → XR} (he : ExpOk ex) {c T κ : ℚ} (hκ : κ ≤ 1 / 2 ^ 10) (h : |c - T| ≤ κ)
    (hT : -600 ≤ T) : ∃ w, ex c = fin w ∧ IsDouble w ∧ 0 ≤ w ∧ w ≤ 2 ^ 950 ∧
      |(w : ℝ) - Hyp.ew T| ≤ (2 * κ + 2 / 2 ^ 52 : ℝ) * Hyp.ew T + 1 / 2 ^ 1074 := by
  have hκ' : (κ : ℝ) ≤ 1 / 2 ^ 10 := by
    have : (κ : ℝ) ≤ ((1 / 2 ^ 10 : ℚ) : ℝ) := Rat.cast_le.2 hκ
    push_cast at this; exact this
  have h' : |(T : ℝ) - c| ≤ κ := by
    have : ((|c - T| : ℚ) : ℝ) ≤ κ := Rat.cast_le.2 h
    push_cast at this
    rw [abs_sub_comm]; exact this
  have hT' : (-600 : ℝ) ≤ T := by exact_mod_cast hT
  have hc : -650 ≤ c := by
    rw [abs_le] at h
    have : (1 : ℚ) / 2 ^ 10 ≤ 1 := by norm_num
    linarith [h.1]
  obtain ⟨w, w1, w2, w3, w4⟩ := he c hc
  have hx : 0 < Hyp.ew T := Hyp.ew_pos T
  have hy : Real.exp (-(c : ℝ)) = Hyp.ew T * Real.exp ((T : ℝ) - c) := by
    unfold Hyp.ew
    rw [← Real.exp_add]; congr 1; ring
  have h10 : (1 : ℝ) / 2 ^ 10 ≤ 1 / 4 := by norm_num
  have hd : |Real.exp ((T : ℝ) - c) - 1| ≤ 2 * κ := by
    refine (Real.abs_exp_sub_one_le (by linarith)).trans ?_
    linarith
  have hyx : |Real.exp (-(c : ℝ)) - Hyp.ew T| ≤ 2 * κ * Hyp.ew T := by
    have e : Real.exp (-(c : ℝ)) - Hyp.ew T = (Real.exp ((T : ℝ) - c) - 1) * Hyp.ew T := by
      rw [hy]; ring
    rw [e, abs_mul, abs_of_pos hx]
    exact mul_le_mul_of_nonneg_right hd hx.le
  have hy2 : Real.exp (-(c : ℝ)) ≤ 2 * Hyp.ew T := by
    rw [abs_le] at hyx
    have : 2 * (κ:ℝ) * Hyp.ew T ≤ 1 * Hyp.ew T := mul_le_mul_of_nonneg_right (by linarith) hx.le
    linarith [hyx.2]
  refine ⟨w, w1, w2, w3, ?_, ?_⟩
  · have hE : Real.exp (-(c : ℝ)) ≤ 2 ^ 940 := by
      refine exp_le_of_le (k := 47) ?_
      rw [abs_le] at h'
      push_cast
      linarith [h'.2]
    have ht : (1:ℝ) / 2 ^ 1074 ≤ 1 := by
      rw [div_le_one (pow_pos (by norm_num) _)]
      exact one_le_pow₀ (by norm_num)
    have hp1 : (1:ℝ) ≤ 2 ^ 940 := one_le_pow₀ (by norm_num)
    have e950 : (2:ℝ) ^ 950 = 2 ^ 940 * 2 ^ 10 := by rw [← pow_add]
    have : (w : ℝ) ≤ 2 ^ 950 := by
      rw [e950]
      rw [abs_le] at w4
      have w5 := w4.2
      clear w4 e950
      generalize (2:ℝ) ^ 940 = B at *
      generalize (1:ℝ) / 2 ^ 1074 = τ at *
      have : Real.exp (-(c : ℝ)) / 2 ^ 52 ≤ Real.exp (-(c : ℝ)) :=
        div_le_self (Real.exp_pos _).le (by norm_num)
      linarith
    have h2 : (w : ℝ) ≤ ((2 ^ 950 : ℚ) : ℝ) := by
      rw [Rat.cast_pow, Rat.cast_ofNat]; exact this
    exact Rat.cast_le.1 h2
  · clear hy
    generalize Real.exp (-(c : ℝ)) = y at *
    generalize Hyp.ew T = x at *
    generalize (1:ℝ) / 2 ^ 1074 = τ at *
    have h1 : y / 2 ^ 52 ≤ 2 * x / 2 ^ 52 := div_le_div_of_nonneg_right hy2 (by norm_num)
    have e : (2 * (κ:ℝ) + 2 / 2 ^ 52) * x = 2 * κ * x + 2 * x / 2 ^ 52 := by ring
    rw [e]
    generalize 2 * x / 2 ^ 52 = z at *
    generalize y / 2 ^ 52 = z' at *
    rw [abs_le] at w4 hyx ⊢
    constructor <;> linarith [w4.1, w4.2, hyx.1, hyx.2]

/-- A normalised sum over the drawn hypotheses: `k` disjoint conditions. -/
theorem drawn_ratio {k : Nat} {ex : ℚ → XR} (he : ExpOk ex) {κ : ℚ} (hκ0 : 0 ≤ κ)
    (hκ : κ ≤ 1 / 2 ^ 10) {C : Cost M (N + 2 * M)} {P : List ((Fin M → Fin (N + 2 * M)) × ℚ)}
    (hc : ∀ p ∈ P, |p.2 - total C p.1| ≤ κ) (hlow : ∀ p ∈ P, -600 ≤ total C p.1)
    (hhigh : ∃ p ∈ P, total C p.1 ≤ 600) (hL : P.length ≤ 2 ^ 21) (hk : k ≤ 2 ^ 17)
    (pred : Fin k → (Fin M → Fin (N + 2 * M)) → Bool) (pr : (Fin M → Fin (N + 2 * M)) → Bool)
    (hpr : ∀ p ∈ P, pr p.1 = true ↔ ∃ x, pred x p.1 = true)
    (huniq : ∀ p ∈ P, ∀ x y, pred x p.1 = true → pred y p.1 = true → x = y) :
    (∀ j, ∃ x, div64 (fsX ((P.filter fun p => pred j p.1).map fun p => ex p.2))
      (fsX (P.map fun p => ex p.2)) = fin x ∧ 0 ≤ x ∧ x ≤ 1) ∧
    ∀ t : Order k, t.Ok →
      ∃ s, t.sum (fun j => div64 (fsX ((P.filter fun p => pred j p.1).map fun p => ex p.2))
          (fsX (P.map fun p => ex p.2))) = fin s ∧ IsDouble s ∧ 0 ≤ s ∧
        s ≤ 1 + 3 * (2 * P.length + 1 + k) / 2 ^ 52 ∧
        |(s : ℝ) - Hyp.mass C (P.map Prod.fst) pr / Hyp.mass C (P.map Prod.fst) fun _ => true| ≤
          8 * κ + (7 * P.length + 3 * k + 11) / 2 ^ 52 := by
  have hw : ∀ p ∈ P, ∃ w, ex p.2 = fin w ∧ IsDouble w ∧ 0 ≤ w ∧ w ≤ 2 ^ 950 ∧
      |(w : ℝ) - Hyp.ew (total C p.1)| ≤
        (2 * κ + 2 / 2 ^ 52 : ℝ) * Hyp.ew (total C p.1) + 1 / 2 ^ 1074 :=
    fun p hp => weight_err he hκ (hc p hp) (hlow p hp)
  choose! w w1 w2 w3 w4 w5 using hw
  have hLq : (P.length : ℚ) ≤ 2 ^ 21 := by exact_mod_cast hL
  have hkq : (k : ℚ) ≤ 2 ^ 17 := by exact_mod_cast hk
  have hL0 : (0 : ℚ) ≤ P.length := Nat.cast_nonneg _
  have hk0 : (0 : ℚ) ≤ k := Nat.cast_nonneg _
  -- the exact weights
  have hmass : ∀ Q : (Fin M → Fin (N + 2 * M)) → Bool, Hyp.mass C (P.map Prod.fst) Q =
      ((P.filter fun p => Q p.1).map fun p => Hyp.ew (total C p.1)).sum := by
    intro Q
    unfold Hyp.mass
    rw [List.filter_map, List.map_map]
    rfl
  have hmassT : Hyp.mass C (P.map Prod.fst) (fun _ => true) =
      (P.map fun p => Hyp.ew (total C p.1)).sum := by
    rw [hmass, List.filter_true]
  have hS0 : 1 / 2 ^ 940 ≤ (P.map fun p => Hyp.ew (total C p.1)).sum := by
    obtain ⟨p, hp, hle⟩ := hhigh
    have h1 : Hyp.ew (total C p.1) ≤ (P.map fun p => Hyp.ew (total C p.1)).sum :=
      List.single_le_sum (by
        intro x hx
        obtain ⟨q, _, rfl⟩ := List.mem_map.1 hx
        exact (Hyp.ew_pos _).le) _ (List.mem_map.2 ⟨p, hp, rfl⟩)
    refine le_trans ?_ h1
    unfold Hyp.ew
    rw [Real.exp_neg, ← one_div]
    refine one_div_le_one_div_of_le (Real.exp_pos _) (exp_le_of_le (k := 47) ?_)
    have : (total C p.1 : ℝ) ≤ 600 := by exact_mod_cast hle
    push_cast; linarith
  set S := (P.map fun p => Hyp.ew (total C p.1)).sum with hSdef
  have h940 : (0:ℝ) < 1 / 2 ^ 940 := one_div_pos.2 (pow_pos (by norm_num) _)
  have hSpos : 0 < S := lt_of_lt_of_le h940 hS0
  have hLr : (P.length : ℝ) ≤ 2 ^ 21 := by exact_mod_cast hL
  have hLr0 : (0 : ℝ) ≤ P.length := Nat.cast_nonneg _
  have hc' : (P.length : ℝ) * (1 / 2 ^ 1074) ≤ (P.length / 2 ^ 60) * S := by
    have h1 : (1:ℝ) / 2 ^ 1074 ≤ 1 / 2 ^ 60 * (1 / 2 ^ 940) := by
      rw [one_div_mul_one_div, ← pow_add]
      exact one_div_le_one_div_of_le (pow_pos (by norm_num) _)
        (pow_le_pow_right₀ (by norm_num) (by norm_num))
    calc (P.length : ℝ) * (1 / 2 ^ 1074) ≤ P.length * (1 / 2 ^ 60 * (1 / 2 ^ 940)) :=
          mul_le_mul_of_nonneg_left h1 hLr0
      _ ≤ P.length * (1 / 2 ^ 60 * S) :=
          mul_le_mul_of_nonneg_left (mul_le_mul_of_nonneg_left hS0 (by norm_num)) hLr0
      _ = _ := by ring
  have hκr0 : (0 : ℝ) ≤ κ := by exact_mod_cast hκ0
  have hκr : (κ : ℝ) ≤ 1 / 2 ^ 10 := by
    have : (κ : ℝ) ≤ ((1 / 2 ^ 10 : ℚ) : ℝ) := Rat.cast_le.2 hκ
    push_cast at this; exact this
  have hac : (2 * (κ:ℝ) + 2 / 2 ^ 52) + P.length / 2 ^ 60 ≤ 1 / 2 := by
    have h1 : (P.length : ℝ) / 2 ^ 60 ≤ 1 / 4 := by
      rw [div_le_iff₀ (by norm_num)]; refine hLr.trans (by norm_num)
    have h2 : (1:ℝ) / 2 ^ 10 ≤ 1 / 16 := by norm_num
    have h3 : (2:ℝ) / 2 ^ 52 ≤ 1 / 16 := by norm_num
    linarith
  obtain ⟨hSw, hratio⟩ := weights_ratio P (fun p => (w p : ℝ)) (fun p => Hyp.ew (total C p.1))
    (a := 2 * κ + 2 / 2 ^ 52) (b := 1 / 2 ^ 1074) (c := P.length / 2 ^ 60) (by positivity)
    (by positivity) (fun p _ => (Hyp.ew_pos _).le) w5 (fun p => pr p.1) hSpos hc' hac
  -- the rounded sums
  have hcast : ∀ Q : List ((Fin M → Fin (N + 2 * M)) × ℚ),
      (Q.map fun p => (w p : ℝ)).sum = ((Q.map w).sum : ℚ) := by
    intro Q
    induction Q with
    | nil => simp
    | cons q Q ih => simp [ih]
  have hSwq : 0 < (P.map w).sum := by
    rw [hcast] at hSw; exact_mod_cast hSw
  have hsumle : (P.map w).sum ≤ P.length * 2 ^ 950 := by
    have h1 : (P.map w).sum ≤ (P.map w).length • (2 : ℚ) ^ 950 :=
      List.sum_le_card_nsmul _ _ fun x hx => by
        obtain ⟨p, hp, rfl⟩ := List.mem_map.1 hx
        exact w4 p hp
    rwa [List.length_map, nsmul_eq_mul] at h1
  have hB : (P.map w).sum * rho ^ P.length ≤ 2 ^ 1000 := by
    have h1 : rho ^ P.length ≤ 2 := by
      refine (rho_pow_le (hLq.trans (by norm_num))).trans ?_
      have : 2 * (P.length : ℚ) / 2 ^ 52 ≤ 1 := by
        rw [div_le_iff₀ (by norm_num)]; linarith
      linarith
    have h950 : (0:ℚ) ≤ 2 ^ 950 := pow_nonneg (by norm_num) _
    have h2 : (P.map w).sum ≤ 2 ^ 21 * 2 ^ 950 :=
      hsumle.trans (mul_le_mul_of_nonneg_right hLq h950)
    have h3 : (P.map w).sum * rho ^ P.length ≤ 2 ^ 21 * 2 ^ 950 * 2 :=
      mul_le_mul h2 h1 (rho_pow_pos _).le (mul_nonneg (by norm_num) h950)
    refine h3.trans ?_
    rw [← pow_add, ← pow_succ]
    exact pow_le_pow_right₀ (by norm_num) (by norm_num)
  obtain ⟨g1, g2⟩ := ratio_spec P (fun p => ex p.2) w
    (fun p hp => ⟨w1 p hp, w2 p hp, w3 p hp⟩) hB hSwq (fun j p => pred j p.1) (fun p => pr p.1)
    hpr huniq (by
      have h1 : (2:ℚ) * 2 ^ 21 + 1 + 2 ^ 17 ≤ 2 ^ 50 := by norm_num
      linarith)
  refine ⟨g1, fun t ht => ?_⟩
  obtain ⟨s, s1, s2, s3, s4⟩ := g2 t ht
  refine ⟨s, s1, s2, s3, ?_, ?_⟩
  · have h1 := filter_sum_le P w w3 fun p => pr p.1
    have h2 : ((P.filter fun p => pr p.1).map w).sum / (P.map w).sum ≤ 1 :=
      (div_le_one hSwq).2 h1.2
    rw [abs_le] at s4
    linarith [s4.2]
  · rw [hmass, hmassT]
    rw [hcast, hcast] at hratio
    have s5 : |(s : ℝ) - ((((P.filter fun p => pr p.1).map w).sum : ℚ) : ℝ) /
        ((P.map w).sum : ℚ)| ≤ 3 * (2 * P.length + 1 + k) / 2 ^ 52 := by
      have := (Rat.cast_le (K := ℝ)).2 s4
      push_cast at this
      push_cast
      exact this
    have e1 : 3 * (2 * (P.length:ℝ) + 1 + k) / 2 ^ 52 + 4 * ((2 * (κ:ℝ) + 2 / 2 ^ 52) +
        P.length / 2 ^ 60) ≤ 8 * κ + (7 * P.length + 3 * k + 11) / 2 ^ 52 := by
      have : (P.length : ℝ) / 2 ^ 60 * 4 ≤ P.length / 2 ^ 52 := by
        rw [le_div_iff₀ (by norm_num)]
        have e : (P.length : ℝ) / 2 ^ 60 * 4 * 2 ^ 52 = P.length * (1 / 64) := by ring
        rw [e]; linarith
      have e2 : (7 * (P.length:ℝ) + 3 * k + 11) / 2 ^ 52 =
        3 * (2 * (P.length:ℝ) + 1 + k) / 2 ^ 52 + P.length / 2 ^ 52 + 8 / 2 ^ 52 := by ring
      rw [e2]
      have e3 : 4 * (2 * (κ:ℝ) + 2 / 2 ^ 52 + P.length / 2 ^ 60) =
        8 * κ + 8 / 2 ^ 52 + P.length / 2 ^ 60 * 4 := by ring
      rw [e3]
      linarith
    refine le_trans ?_ e1
    rw [abs_le] at s5 hratio ⊢
    constructor <;> linarith [s5.1, s5.2, hratio.1, hratio.2]

end Verif.HypF
