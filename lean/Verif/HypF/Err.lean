import Verif.HypF.Loop
import Verif.Hyp.Props
import Mathlib.Analysis.SpecialFunctions.Exp

/-! # Error of normalised sums -/

namespace Verif.HypF

open Verif.Lap Verif.LapF Verif.Murty XR
open Verif.RTreeF (round64_mono)

theorem rho_pow_le {T : Nat} (hT : (T : ℚ) ≤ 2 ^ 50) : rho ^ T ≤ 1 + 2 * T / 2 ^ 52 := by
  induction T with
  | zero => simp
  | succ T ih =>
    have hT' : (T : ℚ) ≤ 2 ^ 50 := by
      have : (T : ℚ) ≤ ((T + 1 : Nat) : ℚ) := by exact_mod_cast Nat.le_succ T
      linarith
    have h1 := mul_le_mul_of_nonneg_right (ih hT') rho_pos.le
    rw [pow_succ]
    refine h1.trans ?_
    unfold rho
    push_cast at hT ⊢
    have h2 : (T : ℚ) / 2 ^ 52 ≤ 1 / 4 := by
      rw [div_le_iff₀ (by norm_num)]; linarith
    have e : (1 + 2 * (T : ℚ) / 2 ^ 52) * (1 + 1 / 2 ^ 52) =
        1 + 2 * T / 2 ^ 52 + 1 / 2 ^ 52 + 2 * (T / 2 ^ 52) * (1 / 2 ^ 52) := by ring
    have h3 : 2 * ((T : ℚ) / 2 ^ 52) * (1 / 2 ^ 52) ≤ 2 * (1 / 4) * (1 / 2 ^ 52) :=
      mul_le_mul_of_nonneg_right (by linarith) (by norm_num)
    rw [e, mul_add, add_div]
    linarith

/-- Disjoint conditions: the sums add up. -/
theorem sum_filter {α : Type} {k : Nat} {𝕜 : Type} [AddCommMonoid 𝕜] (L : List α) (w : α → 𝕜)
    (P : Fin k → α → Bool) (Q : α → Bool) (hPQ : ∀ σ ∈ L, Q σ = true ↔ ∃ x, P x σ = true)
    (huniq : ∀ σ ∈ L, ∀ x y, P x σ = true → P y σ = true → x = y) :
    ∑ x, ((L.filter (P x)).map w).sum = ((L.filter Q).map w).sum := by
  induction L with
  | nil => simp
  | cons σ L ih =>
    have ih' := ih (fun σ h => hPQ σ (List.mem_cons_of_mem _ h))
      (fun σ h => huniq σ (List.mem_cons_of_mem _ h))
    have hstep : ∀ P' : α → Bool, (((σ :: L).filter P').map w).sum =
        (if P' σ = true then w σ else 0) + ((L.filter P').map w).sum := by
      intro P'
      by_cases h : P' σ = true
      · simp [h]
      · simp [h]
    simp only [hstep, Finset.sum_add_distrib, ih']
    congr 1
    by_cases hq : Q σ = true
    · obtain ⟨x, hx⟩ := (hPQ σ List.mem_cons_self).1 hq
      rw [if_pos hq, Finset.sum_eq_single x]
      · rw [if_pos hx]
      · intro y _ hy
        rw [if_neg]
        intro h
        exact hy (huniq σ List.mem_cons_self y x h hx)
      · intro h; exact absurd (Finset.mem_univ x) h
    · rw [if_neg hq]
      apply Finset.sum_eq_zero
      intro x _
      rw [if_neg]
      intro h
      exact hq ((hPQ σ List.mem_cons_self).2 ⟨x, h⟩)

theorem filter_sum_le {α : Type} (L : List α) (w : α → ℚ) (hw : ∀ x ∈ L, 0 ≤ w x) (Q : α → Bool) :
    0 ≤ ((L.filter Q).map w).sum ∧ ((L.filter Q).map w).sum ≤ (L.map w).sum := by
  induction L with
  | nil => simp
  | cons σ L ih =>
    obtain ⟨h1, h2⟩ := ih fun x hx => hw x (List.mem_cons_of_mem _ hx)
    have h3 := hw σ List.mem_cons_self
    by_cases h : Q σ = true
    · simp only [List.filter_cons_of_pos h, List.map_cons, List.sum_cons]
      constructor <;> linarith
    · simp only [List.filter_cons_of_neg h, List.map_cons, List.sum_cons]
      constructor <;> linarith

/-- A sum of normalised weights, in rounded arithmetic: the terms are between 0 and 1, and the sum is
near the exact one. -/
theorem ratio_spec {α : Type} {k : Nat} (P : List α) (ex : α → XR) (w : α → ℚ)
    (hw : ∀ p ∈ P, ex p = fin (w p) ∧ IsDouble (w p) ∧ 0 ≤ w p)
    (hB : (P.map w).sum * rho ^ P.length ≤ 2 ^ 1000) (hS : 0 < (P.map w).sum)
    (pred : Fin k → α → Bool) (pr : α → Bool)
    (hpr : ∀ p ∈ P, pr p = true ↔ ∃ x, pred x p = true)
    (huniq : ∀ p ∈ P, ∀ x y, pred x p = true → pred y p = true → x = y)
    (hT : (2 * P.length + 1 + k : ℚ) ≤ 2 ^ 50) :
    (∀ j, ∃ x, div64 (fsX ((P.filter (pred j)).map ex)) (fsX (P.map ex)) = fin x ∧ 0 ≤ x ∧ x ≤ 1) ∧
    ∀ t : Order k, t.Ok →
      ∃ s, t.sum (fun j => div64 (fsX ((P.filter (pred j)).map ex)) (fsX (P.map ex))) = fin s ∧
        IsDouble s ∧ 0 ≤ s ∧
        |s - ((P.filter pr).map w).sum / (P.map w).sum| ≤ 3 * (2 * P.length + 1 + k) / 2 ^ 52 := by
  have hfs : ∀ Q : List α, (∀ p ∈ Q, p ∈ P) → fsX (Q.map ex) = fs (Q.map w) := by
    intro Q hQ
    rw [← fsX_fin, List.map_map]
    exact congrArg fsX (List.map_congr_left fun p hp => (hw p (hQ p hp)).1)
  have hd : ∀ p ∈ P, IsDouble (w p) ∧ 0 ≤ w p := fun p hp => (hw p hp).2
  have hd' : ∀ x ∈ P.map w, IsDouble x ∧ 0 ≤ x := by
    intro x hx
    obtain ⟨p, hp, rfl⟩ := List.mem_map.1 hx
    exact hd p hp
  obtain ⟨S', e1, e2, e3, e4, e5⟩ := fs_spec (P.map w) hd' (by rw [List.length_map]; exact hB)
  rw [List.length_map] at e4 e5
  have hS' : 0 < S' := by
    by_contra h
    have : S' = 0 := le_antisymm (not_lt.1 h) e3
    rw [this, zero_mul] at e4
    exact absurd e4 (not_le.2 hS)
  set S := (P.map w).sum with hSdef
  set n := P.length with hn
  have hp := rho_pow_pos n
  -- one entry
  have hentry : ∀ j, ∃ x, div64 (fsX ((P.filter (pred j)).map ex)) (fsX (P.map ex)) = fin x ∧
      IsDouble x ∧ 0 ≤ x ∧ x ≤ 1 ∧
      x ≤ ((P.filter (pred j)).map w).sum / S * rho ^ (2 * n + 1) + tiny ∧
      ((P.filter (pred j)).map w).sum / S ≤ (x + tiny) * rho ^ (2 * n + 1) := by
    intro j
    obtain ⟨A', S'', a1, a2, a3, _, a5, a6, _⟩ := fs_filter_le (pred j) w P hd hB
    rw [e1] at a2
    have hSS := XR.fin.inj a2
    subst hSS
    set A := ((P.filter (pred j)).map w).sum with hA
    have hA0 := filter_sum_le P w (fun p hp => (hd p hp).2) (pred j)
    have hlen : (P.filter (pred j)).length ≤ n := List.length_filter_le _ _
    have hB2 : A * rho ^ (P.filter (pred j)).length ≤ 2 ^ 1000 :=
      le_trans (mul_le_mul hA0.2 (pow_le_pow_right₀ rho_ge hlen) (rho_pow_pos _).le hS.le) hB
    obtain ⟨A'', b1, _, _, b4, b5⟩ := fs_spec ((P.filter (pred j)).map w) (by
      intro x hx
      obtain ⟨p, hp, rfl⟩ := List.mem_map.1 hx
      exact hd p (List.mem_of_mem_filter hp)) (by rw [List.length_map]; exact hB2)
    rw [a1] at b1
    have hAA := XR.fin.inj b1
    subst hAA
    rw [List.length_map] at b4 b5
    have b4' : A ≤ A' * rho ^ n :=
      b4.trans (mul_le_mul_of_nonneg_left (pow_le_pow_right₀ rho_ge hlen) a5)
    have b5' : A' ≤ A * rho ^ n :=
      b5.trans (mul_le_mul_of_nonneg_left (pow_le_pow_right₀ rho_ge hlen) hA0.1)
    obtain ⟨x, x1, x2, x3, x4, x5⟩ := div64_spec a5 a6 hS'
    have hx0 : 0 ≤ A' / S' := div_nonneg a5 hS'.le
    have q1 : A' / S' ≤ A / S * rho ^ (2 * n) := by
      rw [div_le_iff₀ hS', two_mul, pow_add]
      have h1 : A / S * S ≤ A / S * (S' * rho ^ n) :=
        mul_le_mul_of_nonneg_left e4 (div_nonneg hA0.1 hS.le)
      rw [div_mul_cancel₀ _ hS.ne'] at h1
      calc A' ≤ A * rho ^ n := b5'
        _ ≤ A / S * (S' * rho ^ n) * rho ^ n := mul_le_mul_of_nonneg_right h1 hp.le
        _ = _ := by ring
    have q2 : A / S ≤ A' / S' * rho ^ (2 * n) := by
      rw [div_le_iff₀ hS, two_mul, pow_add]
      have h1 : A' / S' * S' ≤ A' / S' * (S * rho ^ n) := mul_le_mul_of_nonneg_left e5 hx0
      rw [div_mul_cancel₀ _ hS'.ne'] at h1
      calc A ≤ A' * rho ^ n := b4'
        _ ≤ A' / S' * (S * rho ^ n) * rho ^ n := mul_le_mul_of_nonneg_right h1 hp.le
        _ = _ := by ring
    have q3 : x ≤ A' / S' * rho + tiny ∧ A' / S' ≤ (x + tiny) * rho := by
      have t0 := tiny_pos
      rw [abs_le] at x5
      unfold rho
      constructor
      · have h1 : A' / S' * (1 + 1 / 2 ^ 52) =
          A' / S' + A' / S' / 2 ^ 53 + A' / S' * (1 / 2 ^ 52 - 1 / 2 ^ 53) := by ring
        have h3 : 0 ≤ A' / S' * (1 / 2 ^ 52 - 1 / 2 ^ 53) := mul_nonneg hx0 (by norm_num)
        linarith [x5.2]
      · have h1 : A' / S' - A' / S' / 2 ^ 53 ≤ x + tiny := by linarith [x5.1]
        have h2 := mul_le_mul_of_nonneg_right h1 (by norm_num : (0:ℚ) ≤ 1 + 1 / 2 ^ 52)
        have e : (A' / S' - A' / S' / 2 ^ 53) * (1 + 1 / 2 ^ 52) =
          A' / S' + A' / S' * (1 / 2 ^ 53 - 1 / 2 ^ 105) := by ring
        have h3 : 0 ≤ A' / S' * (1 / 2 ^ 53 - 1 / 2 ^ 105) := mul_nonneg hx0 (by norm_num)
        linarith
    refine ⟨x, ?_, x2, x3, x4, ?_, ?_⟩
    · rw [hfs _ fun p hp => List.mem_of_mem_filter hp, hfs P fun _ h => h, a1, e1]
      exact x1
    · rw [pow_succ, ← mul_assoc]
      have := mul_le_mul_of_nonneg_right q1 rho_pos.le
      linarith [q3.1]
    · have := mul_le_mul_of_nonneg_right q3.2 (rho_pow_pos (2 * n)).le
      calc A / S ≤ A' / S' * rho ^ (2 * n) := q2
        _ ≤ (x + tiny) * rho * rho ^ (2 * n) := this
        _ = (x + tiny) * rho ^ (2 * n + 1) := by ring
  choose x x1 x2 x3 x4 x5 x6 using hentry
  refine ⟨fun j => ⟨x j, x1 j, x3 j, x4 j⟩, fun t ht => ?_⟩
  have hkT : (k : ℚ) ≤ 2 ^ 50 := by
    have : (0 : ℚ) ≤ n := Nat.cast_nonneg n
    linarith
  have hk0 : (0 : ℚ) ≤ k := Nat.cast_nonneg k
  have hsum1 : ∑ j, x j ≤ k := by
    have := Finset.sum_le_card_nsmul Finset.univ x 1 (fun j _ => x4 j)
    rw [Finset.card_univ, Fintype.card_fin, nsmul_eq_mul, mul_one] at this
    exact this
  have hsum0 : 0 ≤ ∑ j, x j := Finset.sum_nonneg fun j _ => x3 j
  have hBk : (∑ j, x j) * rho ^ k ≤ 2 ^ 1000 := by
    have h1 := rho_pow_le hkT
    have h2 : rho ^ k ≤ 2 := by
      refine h1.trans ?_
      have : 2 * (k : ℚ) / 2 ^ 52 ≤ 1 := by
        rw [div_le_iff₀ (by norm_num)]; linarith
      linarith
    have h3 : (∑ j, x j) * rho ^ k ≤ 2 ^ 50 * 2 :=
      mul_le_mul (hsum1.trans hkT) h2 (rho_pow_pos _).le (by norm_num)
    refine h3.trans ?_
    calc (2:ℚ) ^ 50 * 2 = 2 ^ 51 := by norm_num
      _ ≤ 2 ^ 1000 := pow_le_pow_right₀ (by norm_num) (by norm_num)
  obtain ⟨s, s1, s2, s3, s4, s5⟩ := sum_spec ht (fun j => ⟨x1 j, x2 j, x3 j⟩) hBk
  refine ⟨s, s1, s2, s3, ?_⟩
  set E := ((P.filter pr).map w).sum / S with hE
  have hEs : ∑ j, ((P.filter (pred j)).map w).sum / S = E := by
    rw [← Finset.sum_div, sum_filter P w pred pr hpr huniq]
  have hE01 : 0 ≤ E ∧ E ≤ 1 := by
    have := filter_sum_le P w (fun p hp => (hd p hp).2) pr
    exact ⟨div_nonneg this.1 hS.le, (div_le_one hS).2 this.2⟩
  have hup : ∑ j, x j ≤ E * rho ^ (2 * n + 1) + k * tiny := by
    rw [← hEs, Finset.sum_mul]
    have := Finset.sum_le_sum fun j (_ : j ∈ Finset.univ) => x5 j
    rw [Finset.sum_add_distrib] at this
    simpa using this
  have hlo : E ≤ (∑ j, x j + k * tiny) * rho ^ (2 * n + 1) := by
    rw [← hEs]
    have := Finset.sum_le_sum fun j (_ : j ∈ Finset.univ) => x6 j
    rw [← Finset.sum_mul, Finset.sum_add_distrib] at this
    simpa using this
  set T := 2 * n + 1 + k with hTdef
  have hTq : (T : ℚ) = 2 * n + 1 + k := by rw [hTdef]; push_cast; ring
  have hrT := rho_pow_le (T := T) (by rw [hTq]; exact hT)
  have hrT1 := rho_pow_ge T
  have hsplit : rho ^ T = rho ^ (2 * n + 1) * rho ^ k := by rw [hTdef, pow_add]
  have htk : (k : ℚ) * tiny ≤ T / 2 ^ 54 := by
    have h1 : tiny ≤ 1 / 2 ^ 54 := by
      unfold tiny
      exact one_div_le_one_div_of_le (by norm_num) (pow_le_pow_right₀ (by norm_num) (by norm_num))
    have h2 : (k : ℚ) ≤ T := by rw [hTq]; have : (0:ℚ) ≤ n := Nat.cast_nonneg n; linarith
    calc (k : ℚ) * tiny ≤ T * (1 / 2 ^ 54) := mul_le_mul h2 h1 tiny_pos.le (hk0.trans h2)
      _ = T / 2 ^ 54 := by ring
  have hkt0 : 0 ≤ (k : ℚ) * tiny := mul_nonneg hk0 tiny_pos.le
  have f1 : s ≤ (E + k * tiny) * rho ^ T := by
    have h1 : ∑ j, x j ≤ (E + k * tiny) * rho ^ (2 * n + 1) := by
      have := le_mul_of_one_le_right hkt0 (rho_pow_ge (2 * n + 1))
      rw [add_mul]; linarith
    calc s ≤ (∑ j, x j) * rho ^ k := s5
      _ ≤ (E + k * tiny) * rho ^ (2 * n + 1) * rho ^ k :=
        mul_le_mul_of_nonneg_right h1 (rho_pow_pos k).le
      _ = _ := by rw [hsplit]; ring
  have f2 : E ≤ (s + k * tiny) * rho ^ T := by
    have h1 : ∑ j, x j + k * tiny ≤ (s + k * tiny) * rho ^ k := by
      have := le_mul_of_one_le_right hkt0 (rho_pow_ge k)
      rw [add_mul]; linarith
    calc E ≤ (∑ j, x j + k * tiny) * rho ^ (2 * n + 1) := hlo
      _ ≤ (s + k * tiny) * rho ^ k * rho ^ (2 * n + 1) :=
        mul_le_mul_of_nonneg_right h1 (rho_pow_pos _).le
      _ = _ := by rw [hsplit]; ring
  rw [← hTq]
  have hT0 : (0:ℚ) ≤ T := Nat.cast_nonneg T
  have hT4 : 2 * (T:ℚ) / 2 ^ 52 ≤ 1 / 2 := by
    rw [div_le_iff₀ (by norm_num), hTq]; linarith
  generalize rho ^ T = r at *
  generalize (k : ℚ) * tiny = y at *
  have hy1 : y * r ≤ y * 2 := mul_le_mul_of_nonneg_left (by linarith) hkt0
  have hE1 : E * (r - 1) ≤ 1 * (r - 1) := mul_le_mul_of_nonneg_right hE01.2 (by linarith)
  have e54 : (T : ℚ) / 2 ^ 54 * 4 = T / 2 ^ 52 := by ring
  have e52 : 2 * (T : ℚ) / 2 ^ 52 = 2 * (T / 2 ^ 52) := by ring
  have e3 : 3 * (T : ℚ) / 2 ^ 52 = 3 * (T / 2 ^ 52) := by ring
  rw [e3]
  rw [e52] at hrT hT4
  generalize (T : ℚ) / 2 ^ 52 = z at *
  generalize (T : ℚ) / 2 ^ 54 = z' at *
  rw [abs_le]
  constructor
  · by_cases hs1 : E ≤ s
    · linarith
    · have h3 : s * (r - 1) ≤ 1 * (r - 1) :=
        mul_le_mul_of_nonneg_right (by linarith [hE01.2]) (by linarith)
      linarith
  · linarith

end Verif.HypF
