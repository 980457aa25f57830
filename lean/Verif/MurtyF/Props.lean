import Verif.MurtyF.Draw
import Verif.MurtyF.Exact

/-! # Property C79: the k-best enumeration in `double` arithmetic -/

namespace Verif.MurtyF

open Verif.Lap Verif.Lap.XR Verif.LapF Verif.Murty

variable {n m : Nat}

/-- Everything the draws of a fresh `Murty` object guarantee in rounded arithmetic. -/
theorem murty_spec {ar : Arith} {rm : ℚ → ℚ → XR} {C : Cost n m} {D : Nat} {R K δ : ℚ}
    (hA : Rounds ar D R δ) (hrm : MulOk n rm D K δ) (hC : CostOk C) (hs : Scaled C D K)
    (hR : (10 * m + 2 * n + 20) * (2 * K + δ + 2 * δ) ≤ R) (hn : 0 < n) (hn' : n ≤ 30)
    (hm : 0 < m) {pick : List (Node n m) → Nat} (hp : PickOk pick) :
    ∃ M, init ar rm C = some M ∧ ∀ k, ∃ (F : Nat) (L : List ((Fin n → Fin m) × ℚ)),
      (∀ fuel, F ≤ fuel → draws ar pick fuel k M =
        some (L.map (fun p => some (fun i => some (p.1 i), fin p.2)) ++
          List.replicate (k - L.length) none)) ∧
      (L.map Prod.fst).Nodup ∧ (∀ p ∈ L, Feasible C p.1) ∧
      (∀ p ∈ L, |p.2 - total C p.1| ≤ (2 * n + 2) * δ) ∧
      L.Pairwise (fun p q => total C p.1 ≤
        total C q.1 + (2 * n * slackBound n δ + (6 * n + 6) * δ)) ∧
      (∀ p ∈ L, ∀ τ, Feasible C τ → τ ∉ L.map Prod.fst →
        total C p.1 ≤ total C τ + (2 * n * slackBound n δ + (6 * n + 6) * δ)) ∧
      (L.length = k ∨ (L.length < k ∧ ∀ τ, Feasible C τ → τ ∈ L.map Prod.fst)) := by
  obtain ⟨A, M, o, h1, hE, h2, h3, h3g, h3S, h4, h5⟩ := init_spec hA hrm hC hs hR hn hm
  refine ⟨M, h1, ?_⟩
  intro k
  obtain ⟨F, L, g1, g2, g3, g3', g4, g5, g6⟩ := draws_spec hE hn' hp h3g h3S k M h2 h3
  have hL : ∀ p ∈ L, Feasible C p.1 := fun p hp => (h4 p.1).1 (g3 p hp)
  have hcmp : ∀ σ τ, Feasible C σ → Feasible C τ →
      total A σ ≤ total A τ + (lowErr n δ + n * δ) →
      total C σ ≤ total C τ + (2 * n * slackBound n δ + (6 * n + 6) * δ) := by
    intro σ τ hσ hτ h
    have e1 := h5 σ hσ
    have e2 := h5 τ hτ
    rw [abs_le] at e1 e2
    unfold lowErr at h
    linarith [e1.1, e2.2]
  refine ⟨F, L, g1, g2, hL, ?_, ?_, ?_, ?_⟩
  · intro p hp
    have e1 := h5 p.1 (hL p hp)
    have e2 := g3' p hp
    rw [abs_le] at e1 e2 ⊢
    constructor <;> linarith [e1.1, e1.2, e2.1, e2.2]
  · refine List.Pairwise.imp_of_mem ?_ g4
    intro p q hp hq h
    exact hcmp _ _ (hL p hp) (hL q hq) h
  · intro p hp τ hτ hnot
    exact hcmp _ _ (hL p hp) hτ (g5 p hp τ ((h4 τ).2 hτ) hnot)
  · rcases g6 with h | ⟨h, h'⟩
    · exact Or.inl h
    · exact Or.inr ⟨h, fun τ hτ => h' τ ((h4 τ).2 hτ)⟩

/-! ## `double` -/

/-- `min * C.rows()`, `murty.hpp:249`; the row count is exact as a `double`. -/
def mul64 (a b : ℚ) : XR := round64 (a * b)

/-- The rounding unit for an `n`×`m` matrix of costs up to `K`. -/
def unit (n m : Nat) (K : ℚ) : ℚ := (30 * m + 6 * n + 60) * K / 2 ^ 52

theorem onGrid_mul_nat {D : Nat} {q : ℚ} (h : OnGrid D q) (k : Nat) : OnGrid D (q * k) := by
  obtain ⟨z, hz⟩ := h
  exact ⟨z * k, by push_cast; rw [← hz]; ring⟩

theorem mulOk_b64 {n m : Nat} {K : ℚ} (hK : 0 ≤ K) (hr : (30 * m + 6 * n + 60) * K ≤ 2 ^ 1022) :
    MulOk n mul64 (2 ^ 1074) K (unit n m K) := by
  intro q hg hq
  have hn0 : (0 : ℚ) ≤ n := Nat.cast_nonneg n
  have hm0 : (0 : ℚ) ≤ m := Nat.cast_nonneg m
  have hX : |q * n| ≤ (30 * m + 6 * n + 60) * K := by
    rw [abs_mul, Nat.abs_cast]
    have h1 := mul_le_mul_of_nonneg_right hq hn0
    have h2 : (n : ℚ) * K ≤ (30 * m + 6 * n + 60) * K :=
      mul_le_mul_of_nonneg_right (by clear hr; linarith) hK
    clear hr
    linarith
  have h23 : (2:ℚ) ^ 1022 ≤ 2 ^ 1023 := pow_le_pow_right₀ (by norm_num) (by norm_num)
  obtain ⟨r, h1, h2, h3⟩ := round64_spec (onGrid_mul_nat hg n) hX (hr.trans h23)
  refine ⟨r, h1, h3, h2.trans ?_⟩
  have h0 : 0 ≤ (30 * (m : ℚ) + 6 * n + 60) * K :=
    mul_nonneg (by clear hr; linarith) hK
  unfold unit
  exact div_le_div_of_nonneg_left h0 (by norm_num) (by norm_num)

theorem unit_small {n m : Nat} {K : ℚ} (hK : 0 ≤ K) (hn : n ≤ 30) (hm : (m : ℚ) ≤ 2 ^ 40) :
    3 * unit n m K ≤ K := by
  have hn' : (n : ℚ) ≤ 30 := by exact_mod_cast hn
  have h1 : 3 * (30 * (m : ℚ) + 6 * n + 60) ≤ 2 ^ 52 := by
    have : 3 * (30 * (2:ℚ) ^ 40 + 6 * 30 + 60) ≤ 2 ^ 52 := by norm_num
    linarith
  have h2 := mul_le_mul_of_nonneg_right h1 hK
  unfold unit
  rw [mul_div_assoc', div_le_iff₀ (by norm_num)]
  linarith

/-- `double` matrices satisfy the assumptions. -/
theorem double_spec {C : Cost n m} {K : ℚ} (hC : Doubles C K) (hK : 0 ≤ K) (hn : 0 < n)
    (hn' : n ≤ 30) (hm : 0 < m) (hm' : (m : ℚ) ≤ 2 ^ 40)
    (hr : (30 * m + 6 * n + 60) * K ≤ 2 ^ 1022) {pick : List (Node n m) → Nat}
    (hp : PickOk pick) :
    ∃ M, init b64 mul64 C = some M ∧ ∀ k, ∃ (F : Nat) (L : List ((Fin n → Fin m) × ℚ)),
      (∀ fuel, F ≤ fuel → draws b64 pick fuel k M =
        some (L.map (fun p => some (fun i => some (p.1 i), fin p.2)) ++
          List.replicate (k - L.length) none)) ∧
      (L.map Prod.fst).Nodup ∧ (∀ p ∈ L, Feasible C p.1) ∧
      (∀ p ∈ L, |p.2 - total C p.1| ≤ (2 * n + 2) * unit n m K) ∧
      L.Pairwise (fun p q => total C p.1 ≤
        total C q.1 + (2 * n * slackBound n (unit n m K) + (6 * n + 6) * unit n m K)) ∧
      (∀ p ∈ L, ∀ τ, Feasible C τ → τ ∉ L.map Prod.fst →
        total C p.1 ≤ total C τ +
          (2 * n * slackBound n (unit n m K) + (6 * n + 6) * unit n m K)) ∧
      (L.length = k ∨ (L.length < k ∧ ∀ τ, Feasible C τ → τ ∈ L.map Prod.fst)) := by
  have hn0 : (0 : ℚ) ≤ n := Nat.cast_nonneg n
  have hm0 : (0 : ℚ) ≤ m := Nat.cast_nonneg m
  refine murty_spec (R := (30 * m + 6 * n + 60) * K)
    (rounds_b64 (mul_nonneg (by clear hr; linarith) hK) hr) (mulOk_b64 hK hr) hC.ok
    ⟨hK, ?_, ?_⟩ ?_ hn hn' hm hp
  · intro i j q hq
    rcases hC i j with e | ⟨q', e, hd, _⟩
    · rw [e] at hq; cases hq
    · rw [e] at hq; injection hq with hq; rw [← hq]; exact hd.onGrid
  · intro i j q hq
    rcases hC i j with e | ⟨q', e, _, hk⟩
    · rw [e] at hq; cases hq
    · exact XR.fin.inj (e.symm.trans hq) ▸ hk
  · have h1 := unit_small (n := n) (m := m) hK hn' hm'
    have h2 : (10 * (m : ℚ) + 2 * n + 20) * (2 * K + unit n m K + 2 * unit n m K) ≤
        (10 * m + 2 * n + 20) * (3 * K) :=
      mul_le_mul_of_nonneg_left (by clear hr; linarith) (by clear hr; linarith)
    have e : (30 * (m : ℚ) + 6 * n + 60) * K / 2 ^ 52 = unit n m K := rfl
    rw [e]
    clear hr
    linarith

/-- Matrices with few significant bits. -/
theorem exact_spec {C : Cost n m} {K : ℚ} {b : Nat} (hK : 0 ≤ K) (hb : b ≤ 1074)
    (hC : ∀ i j, C i j = pinf ∨ ∃ z : ℤ, C i j = fin (z / 2 ^ b) ∧ |(z : ℚ)| / 2 ^ b ≤ K)
    (hr : (20 * m + 4 * n + 40) * K * 2 ^ b ≤ 2 ^ 52) (hn : 0 < n) (hn' : n ≤ 30) (hm : 0 < m)
    {pick : List (Node n m) → Nat} (hp : PickOk pick) :
    ∃ M, init b64 mul64 C = some M ∧ ∀ k, ∃ (F : Nat) (L : List ((Fin n → Fin m) × ℚ)),
      (∀ fuel, F ≤ fuel → draws b64 pick fuel k M =
        some (L.map (fun p => some (fun i => some (p.1 i), fin p.2)) ++
          List.replicate (k - L.length) none)) ∧
      (L.map Prod.fst).Nodup ∧ (∀ p ∈ L, Feasible C p.1) ∧
      (∀ p ∈ L, p.2 = total C p.1) ∧
      L.Pairwise (fun p q => total C p.1 ≤ total C q.1) ∧
      (∀ p ∈ L, ∀ τ, Feasible C τ → τ ∉ L.map Prod.fst → total C p.1 ≤ total C τ) ∧
      (L.length = k ∨ (L.length < k ∧ ∀ τ, Feasible C τ → τ ∈ L.map Prod.fst)) := by
  have hn0 : (0 : ℚ) ≤ n := Nat.cast_nonneg n
  have hm0 : (0 : ℚ) ≤ m := Nat.cast_nonneg m
  have h2 : (2:ℚ) ^ b ≠ 0 := pow_ne_zero _ (by norm_num)
  have h2' : (0:ℚ) ≤ 2 ^ b := pow_nonneg (by norm_num) _
  have hsc : Scaled C (2 ^ b) K := by
    refine ⟨hK, ?_, ?_⟩
    · intro i j q hq
      rcases hC i j with e | ⟨z, e, _⟩
      · rw [e] at hq; cases hq
      · rw [e] at hq; injection hq with hq
        refine ⟨z, ?_⟩
        rw [← hq]; push_cast; rw [div_mul_cancel₀ _ h2]
    · intro i j q hq
      rcases hC i j with e | ⟨z, e, hk⟩
      · rw [e] at hq; cases hq
      · rw [e] at hq; injection hq with hq
        rw [← hq, abs_div, abs_of_pos (pow_pos (by norm_num : (0:ℚ) < 2) _)]
        exact hk
  have hmul : MulOk n mul64 (2 ^ b) K 0 := by
    intro q hg hq
    refine ⟨q * n, round64_exact hb (onGrid_mul_nat hg n) ?_, onGrid_mul_nat hg n, by simp⟩
    rw [abs_mul, Nat.abs_cast]
    have h3 := mul_le_mul_of_nonneg_right (mul_le_mul_of_nonneg_right hq hn0) h2'
    have h4 : (n : ℚ) * K * 2 ^ b ≤ (20 * m + 4 * n + 40) * K * 2 ^ b :=
      mul_le_mul_of_nonneg_right (mul_le_mul_of_nonneg_right (by linarith) hK) h2'
    have h5 : (2:ℚ) ^ 52 ≤ 2 ^ 53 := by norm_num
    linarith
  obtain ⟨M, h1, h3⟩ := murty_spec (R := (20 * m + 4 * n + 40) * K) (rounds_b64_exact hb hr) hmul
    (fun i j => (hC i j).imp id fun ⟨z, hz, _⟩ => ⟨_, hz⟩) hsc (by
      rw [_root_.add_zero, mul_zero, _root_.add_zero]
      exact le_of_eq (by ring)) hn hn' hm hp
  have hz : slackBound n 0 = 0 := by unfold slackBound; ring
  simp only [hz, mul_zero, _root_.add_zero] at h3
  refine ⟨M, h1, fun k => ?_⟩
  obtain ⟨F, L, g1, g2, g3, g4, g5⟩ := h3 k
  refine ⟨F, L, g1, g2, g3, ?_, g5⟩
  intro p hp
  have := abs_nonpos_iff.1 (g4 p hp)
  linarith

/-! ## Fuel -/

theorem solve_mono (ar : Arith) {f f' : Nat} (h : f ≤ f') {s : Node n m} {x}
    (hs : solve ar f s = some x) : solve ar f' s = some x := by
  unfold solve at hs ⊢
  cases hl : LapF.lap ar s.C f with
  | none => rw [hl] at hs; cases hs
  | some y =>
    rw [hl] at hs
    rw [lap_mono ar s.C h hl]
    exact hs

theorem drawTop_mono (ar : Arith) (pick : List (Node n m) → Nat) {f f' : Nat} (h : f ≤ f')
    (k : Nat) : ∀ Q x, drawTop ar pick f k Q = some x → drawTop ar pick f' k Q = some x := by
  induction k with
  | zero => intro Q x hx; cases hx
  | succ k ih =>
    intro Q x hx
    unfold drawTop at hx ⊢
    cases hq : Q[pick Q]? with
    | none => rw [hq] at hx; cases hx
    | some s =>
      rw [hq] at hx
      simp only at hx ⊢
      by_cases hsol : s.solved = true
      · rw [if_pos hsol] at hx ⊢; exact hx
      · rw [if_neg hsol] at hx ⊢
        cases hs : solve ar f s with
        | none => rw [hs] at hx; cases hx
        | some y =>
          obtain ⟨s', ok⟩ := y
          rw [hs] at hx
          rw [solve_mono ar h hs]
          simp only at hx ⊢
          by_cases he : (if ok = true then s' :: Q.eraseIdx (pick Q)
              else Q.eraseIdx (pick Q)).isEmpty = true
          · rw [if_pos he] at hx ⊢; exact hx
          · rw [if_neg he] at hx ⊢; exact ih _ _ hx

theorem draw_mono (ar : Arith) (pick : List (Node n m) → Nat) {f f' : Nat} (h : f ≤ f')
    {M : State n m} {x} (hx : draw ar pick f M = some x) : draw ar pick f' M = some x := by
  unfold draw at hx ⊢
  by_cases he : M.queue.isEmpty = true
  · rw [if_pos he] at hx ⊢; exact hx
  · rw [if_neg he] at hx ⊢
    cases hd : drawTop ar pick f (M.queue.length + 1) M.queue with
    | none => rw [hd] at hx; cases hx
    | some y =>
      rw [hd] at hx
      rw [drawTop_mono ar pick h _ _ _ hd]
      exact hx

theorem draws_mono (ar : Arith) (pick : List (Node n m) → Nat) {f f' : Nat} (h : f ≤ f') (k : Nat) :
    ∀ (M : State n m) x, draws ar pick f k M = some x → draws ar pick f' k M = some x := by
  induction k with
  | zero => intro M x hx; exact hx
  | succ k ih =>
    intro M x hx
    unfold draws at hx ⊢
    cases hd : draw ar pick f M with
    | none => rw [hd] at hx; cases hx
    | some y =>
      rw [hd] at hx
      rw [draw_mono ar pick h hd]
      simp only [Option.map_eq_some_iff] at hx ⊢
      obtain ⟨l, hl, rfl⟩ := hx
      exact ⟨l, ih _ _ hl, rfl⟩

theorem firstBest_ok : PickOk (firstBest : List (Node n m) → Nat) := by
  intro Q hQ
  obtain ⟨pick, hp⟩ := exists_pickOk (n := n) (m := m)
  obtain ⟨s, hs, hbest⟩ := hp Q hQ
  have hmem : s ∈ Q := List.mem_of_getElem? hs
  have hlt : firstBest Q < Q.length := by
    unfold firstBest
    refine List.findIdx_lt_length_of_exists ⟨s, hmem, ?_⟩
    rw [List.all_eq_true]
    intro x hx
    rw [hbest x hx]; rfl
  refine ⟨Q[firstBest Q], List.getElem?_eq_getElem hlt, ?_⟩
  have := List.findIdx_getElem (w := hlt)
  rw [List.all_eq_true] at this
  intro x hx
  have h1 := this x hx
  rw [Bool.not_eq_true'] at h1
  exact h1

/-! ## Concrete matrices -/

/-- `exM` consists of halves. -/
theorem exM_halves : ∀ i j, exM i j = pinf ∨
    ∃ z : ℤ, exM i j = fin (z / 2 ^ 1) ∧ |(z : ℚ)| / 2 ^ 1 ≤ 5 := by
  intro i j
  fin_cases i <;> fin_cases j
  exacts [Or.inr ⟨10, by decide +kernel, by norm_num⟩, Or.inr ⟨-4, by decide +kernel, by norm_num⟩,
    Or.inl rfl, Or.inr ⟨2, by decide +kernel, by norm_num⟩,
    Or.inr ⟨6, by decide +kernel, by norm_num⟩, Or.inr ⟨7, by decide +kernel, by norm_num⟩]

/-- `exM` consists of `double`s up to 5. -/
theorem exM_doubles : Doubles exM 5 := by
  intro i j
  rcases exM_halves i j with h | ⟨z, h1, h2⟩
  · exact Or.inl h
  · refine Or.inr ⟨_, h1, ⟨z, -1, by norm_num [div_eq_mul_inv], ?_, by norm_num, by norm_num⟩, ?_⟩
    · have h3 : |(z : ℚ)| ≤ 10 := by linarith
      have h4 : |z| ≤ 10 := by exact_mod_cast h3
      exact lt_of_le_of_lt h4 (by norm_num)
    · rw [abs_div, abs_of_pos (by norm_num : (0:ℚ) < 2 ^ 1)]; exact h2

theorem exM_range : (30 * ((3 : Nat) : ℚ) + 6 * ((2 : Nat) : ℚ) + 60) * 5 ≤ 2 ^ 1022 := by
  have h1 : (2:ℚ) ^ 10 ≤ 2 ^ 1022 := pow_le_pow_right₀ (by norm_num) (by norm_num)
  exact le_trans (by norm_num) h1

/-- The model run on it, in `double`s. -/
example : ((init b64 mul64 exM).bind fun M => draws b64 firstBest 40 6 M).map
    (fun L => L.map fun x => x.map fun y => (y.1 0, y.1 1, y.2)) =
    some [some (some 1, some 0, fin (-1)), some (some 1, some 2, fin (3/2)),
      some (some 0, some 1, fin 8), some (some 0, some 2, fin (17/2)), none, none] := by
  decide +kernel

/-- Integers up to `2⁵³` for which the draws come out of order. -/
def exO : Cost 3 3 := ![![fin 3, fin (2 ^ 53 - 3), fin 2], ![fin 2, fin (2 ^ 53 - 1), fin (2 ^ 52)],
  ![fin (2 ^ 53 - 2), pinf, fin (2 ^ 53 - 2)]]

/-! ## C79 -/

/-- C79: in `double` arithmetic every draw is defined, and a successful one returns a one-to-one
assignment over finite entries of the given matrix, with a cost that is off by at most `2 n + 2`
rounding units. -/
theorem C79_valid {C : Cost n m} {K : ℚ} (hC : Doubles C K) (hK : 0 ≤ K) (hn : 0 < n)
    (hn' : n ≤ 30) (hm : 0 < m) (hm' : (m : ℚ) ≤ 2 ^ 40)
    (hr : (30 * m + 6 * n + 60) * K ≤ 2 ^ 1022) {pick : List (Node n m) → Nat}
    (hp : PickOk pick) :
    ∃ M, init b64 mul64 C = some M ∧ ∀ k, ∃ F, ∀ fuel, F ≤ fuel → ∃ R,
      draws b64 pick fuel k M = some R ∧ R.length = k ∧
      ∀ sol c, some (sol, c) ∈ R → ∃ (σ : Fin n → Fin m) (x : Fin n → ℚ) (w : ℚ),
        (∀ i, sol i = some (σ i)) ∧ Function.Injective σ ∧ (∀ i, C i (σ i) = fin (x i)) ∧
        c = fin w ∧ |w - ∑ i, x i| ≤ (2 * n + 2) * ((30 * m + 6 * n + 60) * K / 2 ^ 52) := by
  obtain ⟨M, h1, h2⟩ := double_spec hC hK hn hn' hm hm' hr hp
  refine ⟨M, h1, fun k => ?_⟩
  obtain ⟨F, L, g1, _, g3, g4, _, _, g6⟩ := h2 k
  refine ⟨F, fun fuel hf => ⟨_, g1 fuel hf, ?_, ?_⟩⟩
  · rcases g6 with h | ⟨h, _⟩ <;>
      simp only [List.length_append, List.length_map, List.length_replicate] <;> omega
  · intro sol c hmem
    rcases List.mem_append.1 hmem with h | h
    · obtain ⟨p, hp, heq⟩ := List.mem_map.1 h
      simp only [Option.some.injEq, Prod.mk.injEq] at heq
      obtain ⟨rfl, rfl⟩ := heq
      have hf := g3 p hp
      exact ⟨p.1, fun i => (C i (p.1 i)).val, p.2, fun _ => rfl, hf.1, fun i => (hf.2 i).eq, rfl,
        g4 p hp⟩
    · have := (List.mem_replicate.1 h).2
      cases this

example := C79_valid exM_doubles (by norm_num) (by decide) (by decide) (by decide) (by norm_num)
  exM_range firstBest_ok

/-- C79: rounding does not lose or repeat an assignment.  With `N` the number of assignments over
finite entries, the first `N` draws succeed with different assignments, all later ones fail, and
every assignment is drawn. -/
theorem C79_exhaustive {C : Cost n m} {K : ℚ} (hC : Doubles C K) (hK : 0 ≤ K) (hn : 0 < n)
    (hn' : n ≤ 30) (hm : 0 < m) (hm' : (m : ℚ) ≤ 2 ^ 40)
    (hr : (30 * m + 6 * n + 60) * K ≤ 2 ^ 1022) {pick : List (Node n m) → Nat}
    (hp : PickOk pick) (S : Finset (Fin n → Fin m))
    (hS : ∀ τ, τ ∈ S ↔ Function.Injective τ ∧ ∀ i, ∃ q, C i (τ i) = fin q) :
    ∃ M, init b64 mul64 C = some M ∧ ∀ k, ∃ F, ∀ fuel, F ≤ fuel → ∃ R,
      draws b64 pick fuel k M = some R ∧
      (∀ i : Nat, i < k → (i < S.card ↔ ∃ x, R[i]? = some (some x)) ∧
        (S.card ≤ i ↔ R[i]? = some none)) ∧
      (∀ (i j : Nat) sol ci cj, R[i]? = some (some (sol, ci)) → R[j]? = some (some (sol, cj)) →
        i = j) ∧
      (S.card ≤ k → ∀ τ ∈ S, ∃ c, some ((fun i => some (τ i)), c) ∈ R) := by
  classical
  obtain ⟨M, h1, h2⟩ := double_spec hC hK hn hn' hm hm' hr hp
  refine ⟨M, h1, fun k => ?_⟩
  obtain ⟨F, L, g1, g2, g3, _, _, _, g6⟩ := h2 k
  have hlm : (L.map Prod.fst).length = L.length := List.length_map _
  have hsub : (L.map Prod.fst).toFinset ⊆ S := by
    intro τ hτ
    obtain ⟨p, hp, rfl⟩ := List.mem_map.1 (List.mem_toFinset.1 hτ)
    exact (hS p.1).2 (g3 p hp)
  have hcard : (L.map Prod.fst).toFinset.card = L.length :=
    (List.toFinset_card_of_nodup g2).trans hlm
  have hle : L.length ≤ S.card := hcard ▸ Finset.card_le_card hsub
  have hall : S.card ≤ k → ∀ τ ∈ S, τ ∈ L.map Prod.fst := by
    intro hk τ hτ
    rcases g6 with h | ⟨_, h⟩
    · have : (L.map Prod.fst).toFinset = S := Finset.eq_of_subset_of_card_le hsub (by omega)
      rw [← this] at hτ
      exact List.mem_toFinset.1 hτ
    · exact h τ ((hS τ).1 hτ)
  have hlen : L.length = min k S.card := by
    rcases g6 with h | ⟨h, h'⟩
    · omega
    · have : S ⊆ (L.map Prod.fst).toFinset := fun τ hτ =>
        List.mem_toFinset.2 (h' τ ((hS τ).1 hτ))
      have := Finset.card_le_card this
      omega
  refine ⟨F, fun fuel hf => ⟨_, g1 fuel hf, ?_, ?_, ?_⟩⟩
  · intro i hi
    by_cases hiL : i < L.length
    · have hget : (L.map (fun p => some ((fun i => some (p.1 i) : Fin n → Option (Fin m)),
          fin p.2)) ++ List.replicate (k - L.length) none)[i]? =
          some (some (fun l => some (L[i].1 l), fin L[i].2)) := by
        rw [List.getElem?_append_left (by simpa using hiL), List.getElem?_map,
          List.getElem?_eq_getElem hiL]
        rfl
      rw [hget]
      refine ⟨⟨fun _ => ⟨_, rfl⟩, fun _ => by omega⟩, ⟨fun h => by omega, fun h => by cases h⟩⟩
    · have hget : (L.map (fun p => some ((fun i => some (p.1 i) : Fin n → Option (Fin m)),
          fin p.2)) ++ List.replicate (k - L.length) none)[i]? = some none := by
        rw [List.getElem?_append_right (by simp; omega), List.getElem?_replicate,
          if_pos (by simp; omega)]
      rw [hget]
      refine ⟨⟨fun h => by omega, fun ⟨x, h⟩ => by cases h⟩, ⟨fun _ => rfl, fun _ => by omega⟩⟩
  · intro i j sol ci cj hi hj
    obtain ⟨a, ha, ha'⟩ := getElem?_draws (f := fun p : (Fin n → Fin m) × ℚ =>
      ((fun i => some (p.1 i) : Fin n → Option (Fin m)), fin p.2)) hi
    obtain ⟨b, hb, hb'⟩ := getElem?_draws (f := fun p : (Fin n → Fin m) × ℚ =>
      ((fun i => some (p.1 i) : Fin n → Option (Fin m)), fin p.2)) hj
    simp only [Prod.mk.injEq] at ha' hb'
    have hab : a.1 = b.1 := by
      funext l
      exact Option.some.inj (congrFun (ha'.1.symm.trans hb'.1) l)
    obtain ⟨hi1, hi2⟩ := List.getElem?_eq_some_iff.1 ha
    obtain ⟨hj1, hj2⟩ := List.getElem?_eq_some_iff.1 hb
    refine (List.Nodup.getElem_inj_iff g2 (hi := by rw [hlm]; exact hi1)
      (hj := by rw [hlm]; exact hj1)).1 ?_
    rw [List.getElem_map, List.getElem_map, hi2, hj2, hab]
  · intro hk τ hτ
    obtain ⟨p, hp, rfl⟩ := List.mem_map.1 (hall hk τ hτ)
    exact ⟨fin p.2, List.mem_append_left _ (List.mem_map.2 ⟨p, hp, rfl⟩)⟩

/-- The assignments of `exM`. -/
theorem exM_sols (τ : Fin 2 → Fin 3) : τ ∈ ({![0, 1], ![0, 2], ![1, 0], ![1, 2]} :
    Finset (Fin 2 → Fin 3)) ↔ Function.Injective τ ∧ ∀ i, ∃ q, exM i (τ i) = fin q := by
  constructor
  · intro h
    simp only [Finset.mem_insert, Finset.mem_singleton] at h
    rcases h with rfl | rfl | rfl | rfl <;>
      refine ⟨by decide, fun i => ?_⟩ <;> fin_cases i <;> exact ⟨_, rfl⟩
  · rintro ⟨h1, h2⟩
    have h0 := h2 0
    have hne : τ 0 ≠ τ 1 := fun e => absurd (h1 e) (by decide)
    have hτ : τ = ![τ 0, τ 1] := by funext i; fin_cases i <;> rfl
    generalize τ 0 = a at *
    generalize τ 1 = b at *
    subst hτ
    fin_cases a <;> fin_cases b <;> first
      | decide
      | exact absurd rfl hne
      | (obtain ⟨q, hq⟩ := h0; cases hq)

example := C79_exhaustive exM_doubles (by norm_num) (by decide) (by decide) (by decide)
  (by norm_num) exM_range firstBest_ok {![0, 1], ![0, 2], ![1, 0], ![1, 2]} exM_sols

/-- C79: the order of the draws is right up to `16 n (n+4)ⁿ + 6 n + 6` rounding units: a drawn
assignment is not dearer, by more than that, than any assignment that was not drawn before it. -/
theorem C79_order {C : Cost n m} {K : ℚ} (hC : Doubles C K) (hK : 0 ≤ K) (hn : 0 < n)
    (hn' : n ≤ 30) (hm : 0 < m) (hm' : (m : ℚ) ≤ 2 ^ 40)
    (hr : (30 * m + 6 * n + 60) * K ≤ 2 ^ 1022) {pick : List (Node n m) → Nat}
    (hp : PickOk pick) :
    ∃ M, init b64 mul64 C = some M ∧ ∀ k, ∃ F, ∀ fuel, F ≤ fuel → ∃ R,
      draws b64 pick fuel k M = some R ∧
      ∀ (i : Nat) (σ : Fin n → Fin m) (x : Fin n → ℚ) c,
        R[i]? = some (some (fun l => some (σ l), c)) → (∀ l, C l (σ l) = fin (x l)) →
        ∀ (τ : Fin n → Fin m) (y : Fin n → ℚ), Function.Injective τ →
          (∀ l, C l (τ l) = fin (y l)) →
          (∀ j : Nat, j < i → ∀ c, R[j]? ≠ some (some (fun l => some (τ l), c))) →
          ∑ l, x l ≤ ∑ l, y l + (16 * n * (n + 4) ^ n + 6 * n + 6) *
            ((30 * m + 6 * n + 60) * K / 2 ^ 52) := by
  obtain ⟨M, h1, h2⟩ := double_spec hC hK hn hn' hm hm' hr hp
  refine ⟨M, h1, fun k => ?_⟩
  obtain ⟨F, L, g1, g2, g3, _, g4, g5, _⟩ := h2 k
  refine ⟨F, fun fuel hf => ⟨_, g1 fuel hf, ?_⟩⟩
  intro i σ x c hi hx τ y hτ hy hnot
  obtain ⟨a, ha, ha'⟩ := getElem?_draws (f := fun p : (Fin n → Fin m) × ℚ =>
    ((fun i => some (p.1 i) : Fin n → Option (Fin m)), fin p.2)) hi
  simp only [Prod.mk.injEq] at ha'
  have hσ : σ = a.1 := by
    funext l
    exact Option.some.inj (congrFun ha'.1 l)
  obtain ⟨hi1, hi2⟩ := List.getElem?_eq_some_iff.1 ha
  have hmemA : a ∈ L := hi2 ▸ List.getElem_mem hi1
  have htx : total C a.1 = ∑ l, x l := Finset.sum_congr rfl fun l _ => by
    rw [← hσ, hx l, val_fin]
  have hty : total C τ = ∑ l, y l := Finset.sum_congr rfl fun l _ => by rw [hy l, val_fin]
  have hfeas : Feasible C τ := ⟨hτ, fun l => ⟨y l, hy l⟩⟩
  have hδ : 0 ≤ unit n m K := by
    have hn0 : (0 : ℚ) ≤ n := Nat.cast_nonneg n
    have hm0 : (0 : ℚ) ≤ m := Nat.cast_nonneg m
    unfold unit
    exact div_nonneg (mul_nonneg (by clear hr; linarith) hK) (by norm_num)
  have herr : (16 * (n : ℚ) * (n + 4) ^ n + 6 * n + 6) * ((30 * m + 6 * n + 60) * K / 2 ^ 52) =
      2 * n * slackBound n (unit n m K) + (6 * n + 6) * unit n m K := by
    unfold slackBound unit; ring
  rw [herr, ← htx, ← hty]
  by_cases hmem : τ ∈ L.map Prod.fst
  · obtain ⟨b, hb, rfl⟩ := List.mem_map.1 hmem
    obtain ⟨j, hj1, hj2⟩ := List.mem_iff_getElem.1 hb
    rcases lt_trichotomy i j with hij | hij | hij
    · rw [← hi2, ← hj2]
      exact List.pairwise_iff_getElem.1 g4 i j hi1 hj1 hij
    · subst hij
      rw [← hi2, ← hj2]
      have h3 := slackBound_nonneg (n := n) hδ
      have h4 : 0 ≤ 2 * (n : ℚ) * slackBound n (unit n m K) + (6 * n + 6) * unit n m K := by
        positivity
      clear hr
      linarith
    · refine absurd ?_ (hnot j hij (fin b.2))
      rw [List.getElem?_append_left (by simpa using hj1), List.getElem?_map,
        List.getElem?_eq_getElem hj1, hj2]
      rfl
  · exact g5 a hmemA τ hfeas hmem

example := C79_order exM_doubles (by norm_num) (by decide) (by decide) (by decide) (by norm_num)
  exM_range firstBest_ok

/-- C79: if the costs are multiples of `2⁻ᵇ` and small enough for 52 bits, rounding does not matter
and C17 and C18 hold as stated: exact costs, and no assignment cheaper than a drawn one is left
out before it. -/
theorem C79_exact {C : Cost n m} {K : ℚ} {b : Nat} (hK : 0 ≤ K) (hb : b ≤ 1074)
    (hC : ∀ i j, C i j = pinf ∨ ∃ z : ℤ, C i j = fin (z / 2 ^ b) ∧ |(z : ℚ)| / 2 ^ b ≤ K)
    (hr : (20 * m + 4 * n + 40) * K * 2 ^ b ≤ 2 ^ 52) (hn : 0 < n) (hn' : n ≤ 30) (hm : 0 < m)
    {pick : List (Node n m) → Nat} (hp : PickOk pick) :
    ∃ M, init b64 mul64 C = some M ∧ ∀ k, ∃ F, ∀ fuel, F ≤ fuel → ∃ R,
      draws b64 pick fuel k M = some R ∧ R.length = k ∧
      (∀ sol c, some (sol, c) ∈ R → ∃ (σ : Fin n → Fin m) (x : Fin n → ℚ),
        (∀ i, sol i = some (σ i)) ∧ Function.Injective σ ∧ (∀ i, C i (σ i) = fin (x i)) ∧
        c = fin (∑ i, x i)) ∧
      (∀ (i : Nat) si ci, R[i]? = some (some (si, fin ci)) →
        ∀ (τ : Fin n → Fin m) (x : Fin n → ℚ), Function.Injective τ →
        (∀ l, C l (τ l) = fin (x l)) → ∑ l, x l < ci →
        ∃ j : Nat, j < i ∧ ∃ c, R[j]? = some (some (fun l => some (τ l), c))) := by
  obtain ⟨M, h1, h2⟩ := exact_spec hK hb hC hr hn hn' hm hp
  refine ⟨M, h1, fun k => ?_⟩
  obtain ⟨F, L, g1, g2, g3, gc, g4, g5, g6⟩ := h2 k
  refine ⟨F, fun fuel hf => ⟨_, g1 fuel hf, ?_, ?_, ?_⟩⟩
  · rcases g6 with h | ⟨h, _⟩ <;>
      simp only [List.length_append, List.length_map, List.length_replicate] <;> omega
  · intro sol c hmem
    rcases List.mem_append.1 hmem with h | h
    · obtain ⟨p, hp, heq⟩ := List.mem_map.1 h
      simp only [Option.some.injEq, Prod.mk.injEq] at heq
      obtain ⟨rfl, rfl⟩ := heq
      have hf := g3 p hp
      exact ⟨p.1, fun i => (C i (p.1 i)).val, fun _ => rfl, hf.1, fun i => (hf.2 i).eq, by
        rw [gc p hp]; rfl⟩
    · have := (List.mem_replicate.1 h).2
      cases this
  · intro i si ci hi τ x hτ hx hlt
    obtain ⟨a, ha, ha'⟩ := getElem?_draws (f := fun p : (Fin n → Fin m) × ℚ =>
      ((fun i => some (p.1 i) : Fin n → Option (Fin m)), fin p.2)) hi
    simp only [Prod.mk.injEq, fin.injEq] at ha'
    have htot : total C τ = ∑ l, x l :=
      Finset.sum_congr rfl fun l _ => by rw [hx l, val_fin]
    obtain ⟨hi1, hi2⟩ := List.getElem?_eq_some_iff.1 ha
    have hmemA : a ∈ L := hi2 ▸ List.getElem_mem hi1
    rw [← htot, ha'.2, gc a hmemA] at hlt
    have hfeas : Feasible C τ := ⟨hτ, fun l => ⟨x l, hx l⟩⟩
    have hmem : τ ∈ L.map Prod.fst := by
      by_contra hnot
      exact absurd hlt (not_lt.2 (g5 a hmemA τ hfeas hnot))
    obtain ⟨p, hp, rfl⟩ := List.mem_map.1 hmem
    obtain ⟨j, hj1, hj2⟩ := List.mem_iff_getElem.1 hp
    refine ⟨j, ?_, fin p.2, ?_⟩
    · by_contra hji
      rw [not_lt] at hji
      have : total C a.1 ≤ total C p.1 := by
        rcases Nat.lt_or_eq_of_le hji with h | h
        · rw [← hi2, ← hj2]
          exact List.pairwise_iff_getElem.1 g4 i j hi1 hj1 h
        · subst h
          rw [← hi2, ← hj2]
      exact absurd hlt (not_lt.2 this)
    · rw [List.getElem?_append_left (by simpa using hj1), List.getElem?_map,
        List.getElem?_eq_getElem hj1, hj2]
      rfl

example := C79_exact (K := 5) (b := 1) (by norm_num) (by norm_num) exM_halves (by norm_num)
  (by decide) (by decide) (by decide) firstBest_ok

/-- C79: the exact statement of C18 fails in `double` arithmetic, already for 3×3 matrices of
integers up to `2⁵³`: the third draw reports a lower cost than the second. -/
theorem C79_order_refuted : ∃ (C : Cost 3 3) (pick : List (Node 3 3) → Nat) (M : State 3 3),
    Doubles C (2 ^ 53) ∧ PickOk pick ∧ init b64 mul64 C = some M ∧
    ∃ F, ∀ fuel, F ≤ fuel → ∃ R s1 c1 s2 c2, draws b64 pick fuel 3 M = some R ∧
      R[1]? = some (some (s1, fin c1)) ∧ R[2]? = some (some (s2, fin c2)) ∧ c2 < c1 := by
  have hD : Doubles exO (2 ^ 53) := by
    have hz : ∀ z : ℤ, |z| < 2 ^ 53 → ∀ q : ℚ, q = z → IsDouble q ∧ |q| ≤ 2 ^ 53 := by
      intro z hz q hq
      refine ⟨hq ▸ isDouble_int hz, ?_⟩
      rw [hq]
      have : ((|z| : ℤ) : ℚ) ≤ ((2 ^ 53 : ℤ) : ℚ) := by exact_mod_cast hz.le
      push_cast at this
      exact this
    intro i j
    fin_cases i <;> fin_cases j
    exacts [Or.inr ⟨_, rfl, hz 3 (by norm_num) _ (by norm_num)⟩,
      Or.inr ⟨_, rfl, hz (2 ^ 53 - 3) (by norm_num) _ (by norm_num)⟩,
      Or.inr ⟨_, rfl, hz 2 (by norm_num) _ (by norm_num)⟩,
      Or.inr ⟨_, rfl, hz 2 (by norm_num) _ (by norm_num)⟩,
      Or.inr ⟨_, rfl, hz (2 ^ 53 - 1) (by norm_num) _ (by norm_num)⟩,
      Or.inr ⟨_, rfl, hz (2 ^ 52) (by norm_num) _ (by norm_num)⟩,
      Or.inr ⟨_, rfl, hz (2 ^ 53 - 2) (by norm_num) _ (by norm_num)⟩, Or.inl rfl,
      Or.inr ⟨_, rfl, hz (2 ^ 53 - 2) (by norm_num) _ (by norm_num)⟩]
  have hrun : ((init b64 mul64 exO).bind fun M => (draws b64 firstBest 60 3 M).map
      fun R => (R[1]?.map fun x => x.map fun y => y.2, R[2]?.map fun x => x.map fun y => y.2)) =
      some (some (some (fin 18014398509481984)), some (some (fin 18014398509481982))) := by
    decide +kernel
  obtain ⟨M, hM, h1⟩ := Option.bind_eq_some_iff.1 hrun
  obtain ⟨R, hR, h2⟩ := Option.map_eq_some_iff.1 h1
  simp only [Prod.mk.injEq, Option.map_eq_some_iff] at h2
  obtain ⟨⟨x1, hx1, y1, hy1, hc1⟩, ⟨x2, hx2, y2, hy2, hc2⟩⟩ := h2
  refine ⟨exO, firstBest, M, hD, firstBest_ok, hM, 60, fun fuel hf =>
    ⟨R, y1.1, 18014398509481984, y2.1, 18014398509481982, draws_mono b64 firstBest hf 3 M R hR,
      ?_, ?_, by norm_num⟩⟩
  · rw [hx1, hy1, ← hc1]
  · rw [hx2, hy2, ← hc2]

end Verif.MurtyF
