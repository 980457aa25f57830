import Verif.Tracker.Alone

/-! # A target and a report that have only each other -/

namespace Verif.Tracker

open Verif.RTree (Rect WF items)
open Verif.Cluster (Cl)
open Verif.Hyp Verif.Lap Verif.Murty XR

variable {P R O : Type}

/-- Of three weights `c` is left out by the loop `cluster.hpp:91-106`: it is the smallest, and one of the
others is below `wlim` times the sum of the two, so that the loop ends before it. -/
def Drop (wlim a b c : ℝ) : Prop :=
  c < a ∧ c < b ∧ (a < wlim * (a + b) ∨ b < wlim * (a + b))

/-- The same, but `c` may be as large as another one: then either may be left out. -/
def MayDrop (wlim a b c : ℝ) : Prop :=
  c ≤ a ∧ c ≤ b ∧ 0 < a + b ∧ (a < wlim * (a + b) ∨ b < wlim * (a + b))

/-- What the hypothesis loop keeps of the weights of "detected", "missed" and "not there": all of them, or
all but a smallest one. -/
def Kept (wlim d x y d' x' y' : ℝ) : Prop :=
  (d' = d ∧ x' = x ∧ y' = y ∧ ¬ Drop wlim x y d ∧ ¬ Drop wlim d y x ∧ ¬ Drop wlim d x y) ∨
  (d' = 0 ∧ x' = x ∧ y' = y ∧ MayDrop wlim x y d) ∨
  (d' = d ∧ x' = 0 ∧ y' = y ∧ MayDrop wlim d y x) ∨
  (d' = d ∧ x' = x ∧ y' = 0 ∧ MayDrop wlim d x y)

/-- Fate `j` of the target, a column of `cluster.hpp:66-75`: 0 detected, 1 missed, 2 not there. -/
def fate (j : Fin 3) : Fin 1 → Fin (1 + 2 * 1) := fun _ => j

theorem fate_inj {i j : Fin 3} (h : fate i = fate j) : i = j := congrFun h 0

theorem fate_surj (σ : Fin 1 → Fin (1 + 2 * 1)) : ∃ j, σ = fate j :=
  ⟨σ 0, by funext i; rw [Subsingleton.elim i 0]; rfl⟩

theorem sum_fates {L : List (Fin 1 → Fin (1 + 2 * 1))} (h : L.Nodup)
    (w : (Fin 1 → Fin (1 + 2 * 1)) → ℝ) :
    (L.map w).sum = ∑ j : Fin 3, open Classical in if fate j ∈ L then w (fate j) else 0 := by
  classical
  rw [← List.sum_toFinset _ h, ← Finset.sum_filter_add_sum_filter_not L.toFinset (fun _ => True)]
  simp only [Finset.filter_true, not_true_eq_false, Finset.filter_false, Finset.sum_empty, add_zero]
  rw [← Finset.sum_filter]
  have : L.toFinset = (Finset.univ.filter fun j : Fin 3 => fate j ∈ L).image fate := by
    ext σ
    simp only [List.mem_toFinset, Finset.mem_image, Finset.mem_filter, Finset.mem_univ, true_and]
    constructor
    · intro hσ
      obtain ⟨j, rfl⟩ := fate_surj σ
      exact ⟨j, hσ, rfl⟩
    · rintro ⟨j, hj, rfl⟩
      exact hj
  rw [this, Finset.sum_image]
  intro i _ j _ e
  exact fate_inj e

/-- The hypotheses of a target and a report that have only each other. -/
theorem pair_hypotheses {det : Fin 1 → Fin 1 → XR} {miss fls : Fin 1 → XR} {qf : ℚ} {wt : ℚ → ℝ}
    (hwt : Antitone wt) (hwt0 : ∀ q, 0 ≤ wt q) {d x : ℝ} (hd : MissWeight wt (det 0 0) d)
    (hm : MissWeight wt (miss 0) x) (hf : fls 0 = fin qf)
    {pick : List (Node 1 (1 + 2 * 1)) → Nat} (hp : PickOk pick) {wlim nmax : ℝ}
    (hw : wlim ≤ 1) (hn : 2 < nmax) {fuel : Nat} {a : Acc 1 1}
    (e : hypotheses pick fuel wt wlim nmax (costMatrix det miss fls) = some a) :
    a.n ≠ 0 ∧ ∃ d' x' y', Kept wlim d x (wt qf) d' x' y' ∧
      a.wsum = d' + x' + y' ∧ a.R 0 0 = d' ∧ a.R 0 1 = x' := by
  classical
  have isC : ∀ {c : XR} {w : ℝ}, MissWeight wt c w → IsC c := by
    rintro c w (⟨q, h, _⟩ | ⟨h, _⟩)
    · exact Or.inr ⟨q, h⟩
    · exact Or.inl h
  have hC : CostOk (costMatrix det miss fls) :=
    costMatrix_ok
      (fun i j => by rw [Subsingleton.elim i 0, Subsingleton.elim j 0]; exact isC hd)
      (fun i => by rw [Subsingleton.elim i 0]; exact isC hm)
      (fun i => by rw [Subsingleton.elim i 0]; exact ⟨qf, hf⟩)
  obtain ⟨F, L, a', g1, g2, g3, g4, g5, g6, g7, g8⟩ :=
    hypotheses_spec hC (by decide) (by decide) hp wt wlim nmax
  obtain rfl : a' = a := by
    have h1 := Hyp.hypotheses_mono pick wt wlim nmax (le_max_left fuel F) e
    rw [g1 _ (le_max_right _ _)] at h1
    exact Option.some.inj h1
  set C := costMatrix det miss fls with hCdef
  have c0 : C 0 (0 : Fin 3) = det 0 0 := rfl
  have c1 : C 0 (1 : Fin 3) = miss 0 := rfl
  have c2 : C 0 (2 : Fin 3) = fin qf := hf
  have hfeas : ∀ j : Fin 3, Feasible C (fate j) ↔ IsFin (C 0 j) := by
    intro j
    constructor
    · intro h
      exact h.2 0
    · intro h
      refine ⟨fun i k _ => Subsingleton.elim i k, fun i => ?_⟩
      rw [Subsingleton.elim i 0]
      exact h
  have htot : ∀ (j : Fin 3) q, C 0 j = fin q → total C (fate j) = q := by
    intro j q h
    simp only [total, Finset.univ_unique, Finset.sum_singleton, Fin.default_eq_zero, fate, h]
    rfl
  -- the weights of the three fates
  set v : Fin 3 → ℝ := ![d, x, wt qf] with hv
  have hvw : ∀ j : Fin 3, MissWeight wt (C 0 j) (v j) := by
    intro j
    fin_cases j
    · exact hd
    · exact hm
    · exact Or.inl ⟨qf, c2, rfl⟩
  have hv0 : ∀ j, 0 ≤ v j := by
    intro j
    rcases hvw j with ⟨q, _, h⟩ | ⟨_, h⟩
    · rw [h]; exact hwt0 q
    · rw [h]
  have hvt : ∀ j, Feasible C (fate j) → wt (total C (fate j)) = v j := by
    intro j hj
    rcases hvw j with ⟨q, h1, h2⟩ | ⟨h1, _⟩
    · rw [htot j q h1, h2]
    · obtain ⟨q, h⟩ := (hfeas j).1 hj
      rw [h1] at h
      cases h
  have hvno : ∀ j, ¬ Feasible C (fate j) → v j = 0 := by
    intro j hj
    rcases hvw j with ⟨q, h1, h2⟩ | ⟨_, h2⟩
    · exact absurd ((hfeas j).2 ⟨q, h1⟩) hj
    · exact h2
  set k : Fin 3 → ℝ := fun j => if fate j ∈ L then v j else 0 with hk
  have hkw : ∀ j, (if fate j ∈ L then wt (total C (fate j)) else 0) = k j := by
    intro j
    simp only [hk]
    split
    · rename_i h
      exact hvt j (g4 _ h)
    · rfl
  have hsum : a'.wsum = k 0 + k 1 + k 2 := by
    rw [g2.wsum, sum_fates g3]
    simp only [hkw, Fin.sum_univ_three]
  have hR : ∀ j : Fin 2, a'.R 0 j = k (Fin.castSucc j) := by
    intro j
    rw [g2.R, sum_fates (g3.filter _)]
    have hmem : ∀ i : Fin 3, fate i ∈ L.filter (fun σ => target 0 (σ 0) = some j) ↔
        fate i ∈ L ∧ i = Fin.castSucc j := by
      intro i
      rw [List.mem_filter]
      refine and_congr_right fun _ => ?_
      rw [decide_eq_true_iff]
      exact (by decide : ∀ (j : Fin 2) (i : Fin 3),
        target (M := 1) (N := 1) 0 i = some j ↔ i = Fin.castSucc j) j i
    simp only [hmem, Fin.sum_univ_three]
    fin_cases j
    · have := hkw 0
      simp at this ⊢
      exact this
    · have := hkw 1
      simp at this ⊢
      exact this
  have hfls : Feasible C (fate 2) := (hfeas 2).2 ⟨qf, c2⟩
  have hstop : ∀ x : ℝ, ¬ Stop wlim nmax [x] := by
    rintro x (⟨h1, h2⟩ | h)
    · simp only [List.sum_cons, List.sum_nil, add_zero, List.getLast?_singleton,
        Option.getD_some] at h1 h2
      rw [div_self h1] at h2
      linarith
    · simp only [List.length_cons, List.length_nil] at h
      norm_num at h
      linarith
  refine ⟨?_, k 0, k 1, k 2, ?_, hsum, hR 0, hR 1⟩
  · rw [g2.n]
    rcases g8 with ⟨h, _⟩ | h
    · exact (List.length_pos_iff.2 h).ne'
    · exact (List.length_pos_of_mem (h _ hfls)).ne'
  by_cases hall : ∀ j, Feasible C (fate j) → fate j ∈ L
  · have kv : ∀ j, k j = v j := by
      intro j
      simp only [hk]
      split
      · rfl
      · rename_i h
        exact (hvno j fun hf => h (hall j hf)).symm
    -- what is smallest and could be left out is not feasible, so its weight is zero
    have nodrop : ∀ i l j : Fin 3, i ≠ l → i ≠ j → l ≠ j → Drop wlim (v i) (v l) (v j) →
        k j = 0 ∧ MayDrop wlim (v i) (v l) (v j) := by
      rintro i l j hil hij hlj ⟨d1, d2, d3⟩
      have hi0 := (hv0 j).trans_lt d1
      have hl0 := (hv0 j).trans_lt d2
      refine ⟨?_, d1.le, d2.le, by linarith, d3⟩
      by_contra hkj
      have hfj : Feasible C (fate j) := by
        by_contra h
        exact hkj ((kv j).trans (hvno j h))
      have hfi : Feasible C (fate i) := by
        by_contra h
        exact hi0.ne' (hvno i h)
      have hfl : Feasible C (fate l) := by
        by_contra h
        exact hl0.ne' (hvno l h)
      have mi := hall i hfi
      have ml := hall l hfl
      have mj := hall j hfj
      have hlen : 3 ≤ L.length := by
        have hsub : [fate i, fate l, fate j].Subperm L := by
          refine List.subperm_of_subset ?_ ?_
          · simp only [List.nodup_cons, List.mem_cons, List.not_mem_nil, or_false, not_or,
              not_false_eq_true, List.nodup_nil, and_true]
            exact ⟨⟨fun h => hil (fate_inj h), fun h => hij (fate_inj h)⟩, fun h => hlj (fate_inj h)⟩
          · intro σ hσ
            simp only [List.mem_cons, List.not_mem_nil, or_false] at hσ
            rcases hσ with rfl | rfl | rfl <;> assumption
        simpa using hsub.length_le
      match L, hlen with
      | σ :: ρ :: τ :: r, _ =>
        obtain ⟨i1, rfl⟩ := fate_surj σ
        obtain ⟨i2, rfl⟩ := fate_surj ρ
        obtain ⟨i3, rfl⟩ := fate_surj τ
        have f1 := g4 (fate i1) (by simp)
        have f2 := g4 (fate i2) (by simp)
        have f3 := g4 (fate i3) (by simp)
        have hst := g7 1 (by simp)
        simp only [List.nodup_cons, List.mem_cons, not_or] at g3
        have b1 : i1 ≠ i2 := fun h => g3.1.1 (by rw [h])
        have b2 : i1 ≠ i3 := fun h => g3.1.2.1 (by rw [h])
        have b3 : i2 ≠ i3 := fun h => g3.2.1.1 (by rw [h])
        simp only [List.pairwise_cons, List.mem_cons] at g5
        have o1 : v i2 ≤ v i1 := by
          rw [← hvt _ f1, ← hvt _ f2]
          exact hwt (g5.1 _ (Or.inl rfl))
        have o2 : v i3 ≤ v i2 := by
          rw [← hvt _ f3, ← hvt _ f2]
          exact hwt (g5.2.1 _ (Or.inl rfl))
        have h1 : i1 ≠ j := by
          rintro rfl
          rcases (by decide : ∀ i l j i2 : Fin 3, i ≠ l → i ≠ j → l ≠ j → j ≠ i2 → i2 = i ∨ i2 = l)
            i l i1 i2 hil hij hlj b1 with rfl | rfl <;> linarith
        have h2 : i2 ≠ j := by
          rintro rfl
          rcases (by decide : ∀ i l j i2 : Fin 3, i ≠ l → i ≠ j → l ≠ j → j ≠ i2 → i2 = i ∨ i2 = l)
            i l i2 i3 hil hij hlj b3 with rfl | rfl <;> linarith
        have hcase : (i1 = i ∧ i2 = l) ∨ (i1 = l ∧ i2 = i) :=
          (by decide : ∀ i l j i1 i2 : Fin 3, i ≠ l → i ≠ j → l ≠ j → i1 ≠ i2 → i1 ≠ j → i2 ≠ j →
            (i1 = i ∧ i2 = l) ∨ (i1 = l ∧ i2 = i)) i l j i1 i2 hil hij hlj b1 h1 h2
        have hsm : 0 < v i1 + v i2 ∧ v i2 < wlim * (v i1 + v i2) := by
          rcases hcase with ⟨rfl, rfl⟩ | ⟨rfl, rfl⟩
          · exact ⟨by linarith, by rcases d3 with h | h <;> linarith⟩
          · rw [add_comm (v i1)]
            exact ⟨by linarith, by rcases d3 with h | h <;> linarith⟩
        refine hst (Or.inl ?_)
        simp only [List.take_succ_cons, List.take_zero, List.map_cons, List.map_nil, List.sum_cons,
          List.sum_nil, add_zero, hvt _ f1, hvt _ f2]
        refine ⟨hsm.1.ne', ?_⟩
        rw [div_lt_iff₀ hsm.1]
        simpa using hsm.2
    by_cases n0 : Drop wlim (v 1) (v 2) (v 0)
    · obtain ⟨h1, h2⟩ := nodrop 1 2 0 (by decide) (by decide) (by decide) n0
      exact Or.inr (Or.inl ⟨h1, kv 1, kv 2, h2⟩)
    by_cases n1 : Drop wlim (v 0) (v 2) (v 1)
    · obtain ⟨h1, h2⟩ := nodrop 0 2 1 (by decide) (by decide) (by decide) n1
      exact Or.inr (Or.inr (Or.inl ⟨kv 0, h1, kv 2, h2⟩))
    by_cases n2 : Drop wlim (v 0) (v 1) (v 2)
    · obtain ⟨h1, h2⟩ := nodrop 0 1 2 (by decide) (by decide) (by decide) n2
      exact Or.inr (Or.inr (Or.inr ⟨kv 0, kv 1, h1, h2⟩))
    exact Or.inl ⟨kv 0, kv 1, kv 2, n0, n1, n2⟩
  · push Not at hall
    obtain ⟨j, hj, hjL⟩ := hall
    rcases g8 with ⟨h1, h2⟩ | h
    swap
    · exact absurd (h _ hj) hjL
    -- exactly two are drawn
    have key : ∃ i l : Fin 3, L = [fate i, fate l] := by
      match L, h1 with
      | [σ], _ => exact absurd h2 (hstop _)
      | [σ, ρ], _ =>
        obtain ⟨i, rfl⟩ := fate_surj σ
        obtain ⟨l, rfl⟩ := fate_surj ρ
        exact ⟨i, l, rfl⟩
      | σ :: ρ :: τ :: l, _ =>
        exfalso
        obtain ⟨i, rfl⟩ := fate_surj σ
        obtain ⟨i', rfl⟩ := fate_surj ρ
        obtain ⟨i'', rfl⟩ := fate_surj τ
        simp only [List.nodup_cons, List.mem_cons, not_or] at g3 hjL
        obtain ⟨⟨a1, a2, _⟩, ⟨a3, _⟩, _⟩ := g3
        obtain ⟨a4, a5, a6, _⟩ := hjL
        have b1 : i ≠ i' := fun h => a1 (by rw [h])
        have b2 : i ≠ i'' := fun h => a2 (by rw [h])
        have b3 : i' ≠ i'' := fun h => a3 (by rw [h])
        have b4 : j ≠ i := fun h => a4 (by rw [h])
        have b5 : j ≠ i' := fun h => a5 (by rw [h])
        have b6 : j ≠ i'' := fun h => a6 (by rw [h])
        exact (by decide : ∀ i i' i'' j : Fin 3, i ≠ i' → i ≠ i'' → i' ≠ i'' → j ≠ i → j ≠ i' →
          j ≠ i'' → False) i i' i'' j b1 b2 b3 b4 b5 b6
    obtain ⟨i, l, rfl⟩ := key
    have fi := g4 (fate i) (by simp)
    have fl := g4 (fate l) (by simp)
    have hil : i ≠ l := by
      rintro rfl
      simp at g3
    have hji : j ≠ i := by rintro rfl; simp at hjL
    have hjl : j ≠ l := by rintro rfl; simp at hjL
    have o1 : v l ≤ v i := by
      rw [← hvt i fi, ← hvt l fl]
      refine hwt ?_
      simp only [List.pairwise_cons, List.mem_singleton, forall_eq] at g5
      exact g5.1
    have o2 : v j ≤ v l := by
      rw [← hvt j hj, ← hvt l fl]
      exact hwt (g6 _ (by simp) _ hj hjL)
    have hlt : 0 < v i + v l ∧ v l < wlim * (v i + v l) := by
      rcases h2 with ⟨h3, h4⟩ | h
      · simp only [List.map_cons, List.map_nil, List.sum_cons, List.sum_nil, add_zero,
          hvt i fi, hvt l fl] at h3 h4
        have h5 : 0 < v i + v l := lt_of_le_of_ne (add_nonneg (hv0 _) (hv0 _)) (Ne.symm h3)
        refine ⟨h5, ?_⟩
        rw [div_lt_iff₀ h5] at h4
        simpa using h4
      · simp only [List.length_map, List.length_cons, List.length_nil] at h
        norm_num at h
        linarith
    have ki : k i = v i := by simp [hk]
    have kl : k l = v l := by simp [hk]
    have kj : k j = 0 := by simp only [hk]; rw [if_neg hjL]
    have v0 : v 0 = d := rfl
    have v1 : v 1 = x := rfl
    have v2 : v 2 = wt qf := rfl
    clear_value k v
    obtain ⟨p1, p2⟩ := hlt
    right
    have three : ∀ j : Fin 3, j = 0 ∨ j = 1 ∨ j = 2 := by decide
    rcases three j with rfl | rfl | rfl <;> rcases three i with rfl | rfl | rfl <;>
      rcases three l with rfl | rfl | rfl <;> (try exact absurd rfl hji) <;>
      (try exact absurd rfl hjl) <;> (try exact absurd rfl hil) <;>
      simp only [v0, v1, v2] at ki kl o1 o2 p1 p2
    · left; exact ⟨kj, ki, kl, o2.trans o1, o2, p1, Or.inr p2⟩
    · left; exact ⟨kj, kl, ki, o2, o2.trans o1, by linarith, Or.inl (by rw [add_comm x]; exact p2)⟩
    · right; left; exact ⟨ki, kj, kl, o2.trans o1, o2, p1, Or.inr p2⟩
    · right; left; exact ⟨kl, kj, ki, o2, o2.trans o1, by linarith, Or.inl (by rw [add_comm d]; exact p2)⟩
    · right; right; exact ⟨ki, kl, kj, o2.trans o1, o2, p1, Or.inr p2⟩
    · right; right; exact ⟨kl, ki, kj, o2, o2.trans o1, by linarith, Or.inl (by rw [add_comm d]; exact p2)⟩

theorem pair_corrected {E : Env P R O} {S : Sensor P R} {acc : Hyp.Acc 1 1} (a : Nat) (t : Tgt P)
    (o : O) (zl : R) {d x y : ℝ} (h2 : acc.wsum = d + x + y) (h3 : acc.R 0 0 = d) (h4 : acc.R 0 1 = x)
    (h : d + x + y ≠ 0) :
    back E (corrected E S a (forth E o t) [zl] (List.ofFn fun j => acc.R 0 j / acc.wsum)
      (acc.rowSum 0)) = { t with
      r := if 1 / 1000000 ≤ (d + x) / (d + x + y) then (d + x) / (d + x + y) else 0
      pdf := E.toGlobal (if 1 / 1000000 ≤ (d + x) / (d + x + y) then
        E.join (E.toLocal o t.pdf) [d / (d + x + y), x / (d + x + y)]
          [S.upd a (E.toLocal o t.pdf) zl, S.missPdf a (E.toLocal o t.pdf)]
          else E.toLocal o t.pdf)
      la := if 1 / 1000000 ≤ (d + x) / (d + x + y) then 'c' else t.la } := by
  have hw : acc.wsum ≠ 0 := by rw [h2]; exact h
  have hs : acc.rowSum 0 = some ((d + x) / (d + x + y)) := by
    unfold Hyp.Acc.rowSum
    rw [if_neg hw, Fin.sum_univ_two, h2, h3, h4, ← add_div]
  have hl : (List.ofFn fun j => acc.R 0 j / acc.wsum) = [d / (d + x + y), x / (d + x + y)] := by
    rw [← h2, ← h3, ← h4]
    simp [List.ofFn_succ]
  rw [hs, hl]
  unfold back corrected targetCorrect forth
  by_cases hc : 1 / 1000000 ≤ (d + x) / (d + x + y)
  · simp only [if_pos hc, List.map_cons, List.map_nil, List.cons_append, List.nil_append, if_true]
  · simp only [if_neg hc]
    rfl

/-- What the correction makes of a target and a report that have only each other. -/
theorem pair_compute {E : Env P R O} {S : Sensor P R} {prm : Params}
    {pick : ∀ r c, List (Node r c) → Nat} (hp : ∀ r c, PickOk (pick r c)) {fuel : Nat} {wt : ℚ → ℝ}
    (hwt : Antitone wt) (hwt0 : ∀ q, 0 ≤ wt q)
    {a : Nat} {t : Tgt P} {z : R} {o : O} {p : P} {zl : R}
    (ho : o = E.center [E.rpos z, E.pos t.pdf]) (hpp : p = E.toLocal o t.pdf) (hzl : zl = E.rLocal o z)
    {d x : ℝ} {qf : ℚ} (hd : MissWeight wt (S.detCost a t.r p zl) d)
    (hm : MissWeight wt (S.missCost a t.r p) x)
    (hf : S.flsCost t.r = fin qf) (hpos : 0 < d + x + wt qf)
    (hw : prm.wlim ≤ 1) (hn : 2 < prm.nhypMax) {v : Comp P R}
    (e : compute E S prm pick fuel wt [(a, t)] [z] = some v) :
    ∃ d' x' y', Kept prm.wlim d x (wt qf) d' x' y' ∧ 0 < d' + x' + y' ∧
      v.rB = [some (1 - d' / (d' + x' + y'))] ∧
      v.ts = [{ t with
        r := if 1 / 1000000 ≤ (d' + x') / (d' + x' + y') then (d' + x') / (d' + x' + y') else 0
        pdf := E.toGlobal (if 1 / 1000000 ≤ (d' + x') / (d' + x' + y') then
          E.join p [d' / (d' + x' + y'), x' / (d' + x' + y')] [S.upd a p zl, S.missPdf a p] else p)
        la := if 1 / 1000000 ≤ (d' + x') / (d' + x' + y') then 'c' else t.la }] := by
  classical
  subst ho hpp hzl
  unfold compute at e
  simp only at e
  rw [if_neg (by simp)] at e
  split at e
  · cases e
  · rename_i acc hacc
    obtain ⟨h1, d', x', y', hk, h2, h3, h4⟩ := pair_hypotheses (qf := qf) hwt hwt0 (by exact hd)
      (by exact hm) hf (hp _ _) hw hn hacc
    have h5 : acc.n ≠ 0 := h1
    rw [if_neg h5] at e
    injection e with e
    subst e
    have hd0 : 0 ≤ d := by
      rcases hd with ⟨q, _, h⟩ | ⟨_, h⟩
      · rw [h]; exact hwt0 q
      · rw [h]
    have hx0 : 0 ≤ x := by
      rcases hm with ⟨q, _, h⟩ | ⟨_, h⟩
      · rw [h]; exact hwt0 q
      · rw [h]
    have hW : 0 < d' + x' + y' := by
      rcases hk with ⟨rfl, rfl, rfl, _⟩ | ⟨rfl, rfl, rfl, _, _, h, _⟩ | ⟨rfl, rfl, rfl, _, _, h, _⟩ |
        ⟨rfl, rfl, rfl, _, _, h, _⟩ <;> linarith
    refine ⟨d', x', y', hk, hW, ?_, ?_⟩
    · have hne : acc.wsum ≠ 0 := by
        intro h
        have h2' : acc.wsum = d' + x' + y' := h2
        rw [h] at h2'
        linarith
      have one : ∀ (n : Nat) (hn : n = 1) (f : Fin n → Option ℝ) (y : Option ℝ),
          f ⟨0, hn ▸ Nat.one_pos⟩ = y → List.ofFn f = [y] := by
        rintro n rfl f y rfl
        simp
      dsimp only
      refine one _ (by simp) _ _ ?_
      unfold Hyp.Acc.rB
      rw [if_neg hne]
      congr 2
      have h2' : acc.wsum = d' + x' + y' := h2
      rw [h2']
      have hs : ∀ f : Fin 1 → ℝ, ∑ i, f i = f 0 := by intro f; simp
      refine (hs _).trans ?_
      exact congrArg (· / (d' + x' + y')) h3
    · have one : ∀ (n : Nat) (hn : n = 1) (f : Fin n → Tgt P) (y : Tgt P),
          f ⟨0, hn ▸ Nat.one_pos⟩ = y → List.ofFn f = [y] := by
        rintro n rfl f y rfl
        simp
      dsimp only
      refine one _ (by simp) _ _ ?_
      exact pair_corrected (E := E) (S := S) (acc := acc) a t (E.center [E.rpos z, E.pos t.pdf])
        (E.rLocal (E.center [E.rpos z, E.pos t.pdf]) z) h2 h3 h4 hW.ne'

/-- A target and a report that touch only each other are a cluster. -/
theorem pair_cluster {E : Env P R O} (hbox : BoxOk E) {S : Sensor P R}
    (hf : S.fovBox.Valid) {scan : List (Rep R)} (hz : ∀ z ∈ scan, (E.rbox z.val).Valid) {s : St P}
    (hs : Ok E s fun _ => False) {cls : List Cl} {s1 : St P} {rcid : Nat → Nat}
    (e : prepare E S scan s = some (cls, s1, rcid)) {c : Cl} (hc : c ∈ cls) {a j : Nat}
    (ha : a ∈ c.targets) (hit : Hits E scan s a j) (hone : ∀ i, Hits E scan s a i → i = j)
    (hmine : ∀ b, Hits E scan s b j → b = a) : c.targets = [a] ∧ c.reports = [j] := by
  obtain ⟨h1, h2⟩ := prepare_closed hbox hf hz hs e c hc a ha
  have hstay : ∀ {i k : Nat}, i = j →
      Relation.ReflTransGen (fun x y => ∃ b, Hits E scan s b x ∧ Hits E scan s b y) i k → k = j := by
    intro i k hi h
    induction h with
    | refl => exact hi
    | tail _ hb ih =>
      subst ih
      obtain ⟨b, g1, g2⟩ := hb
      rw [hmine b g1] at g2
      exact hone _ g2
  have hback : ∀ {i k : Nat}, k = j →
      Relation.ReflTransGen (fun x y => ∃ b, Hits E scan s b x ∧ Hits E scan s b y) i k → i = j := by
    intro i k hk h
    induction h using Relation.ReflTransGen.head_induction_on with
    | refl => exact hk
    | head hb _ ih =>
      subst ih
      obtain ⟨b, g1, g2⟩ := hb
      rw [hmine b g2] at g1
      exact hone _ g1
  have hl : ∀ k, Linked E scan s a k ↔ k = j := by
    intro k
    constructor
    · rintro ⟨i, g1, g2⟩
      exact hstay (hone i g1) g2
    · rintro rfl
      exact ⟨k, hit, Relation.ReflTransGen.refl⟩
  obtain ⟨cls', s1', rcid', p1, p2, _, _, _, p6, _⟩ := prepare_ok hbox hf hz hs
  rw [e, Option.some.injEq, Prod.mk.injEq, Prod.mk.injEq] at p1
  obtain ⟨rfl, rfl, rfl⟩ := p1
  have hnd := (List.nodup_flatMap.1 p2.tnd).1 c hc
  have hrd := (List.nodup_flatMap.1 (p6.nodup_iff.2 List.nodup_range)).1 c hc
  refine ⟨List.perm_singleton.1 ?_, List.perm_singleton.1 ?_⟩
  · rw [List.perm_ext_iff_of_nodup hnd (by simp)]
    intro b
    rw [h2 b, List.mem_singleton]
    constructor
    · rintro (h | ⟨k, h, i, g1, g2⟩)
      · exact h
      · have hi := hback ((hl k).1 h) g2
        subst hi
        exact hmine b g1
    · exact Or.inl
  · rw [List.perm_ext_iff_of_nodup hrd (by simp)]
    intro k
    rw [h1 k, List.mem_singleton, hl]

/-- What the correction stores for a target and a report that touch only each other. -/
theorem pair_stored {E : Env P R O} (hbox : BoxOk E) {S : Sensor P R} {prm : Params} {fuel : Nat}
    {pick : ∀ r c, List (Node r c) → Nat} (hp : ∀ r c, PickOk (pick r c)) {wt : ℚ → ℝ}
    (hwt : Antitone wt) (hwt0 : ∀ q, 0 ≤ wt q)
    (hf : S.fovBox.Valid) {scan : List (Rep R)} (hz : ∀ z ∈ scan, (E.rbox z.val).Valid) {s : St P}
    (hs : Ok E s fun _ => False) {cls : List Cl} {s1 : St P} {rcid : Nat → Nat}
    (e : prepare E S scan s = some (cls, s1, rcid)) {c : Cl} (hcm : c ∈ cls) {a k : Nat}
    (hk : c.targets[k]? = some a) {t : Tgt P} (ht : s.heap a = some t) {j : Nat} {z : Rep R}
    (hj : scan[j]? = some z) (hit : (E.rbox z.val).Touch (E.box t.pdf))
    (hone : ∀ i z', scan[i]? = some z' → (E.rbox z'.val).Touch (E.box t.pdf) → i = j)
    (hmine : ∀ b t', s.heap b = some t' → (E.rbox z.val).Touch (E.box t'.pdf) → b = a)
    (hw : prm.wlim ≤ 1) (hn : 2 < prm.nhypMax) {o : O} {p : P} {zl : R}
    (ho : o = E.center [E.rpos z.val, E.pos t.pdf]) (hpp : p = E.toLocal o t.pdf)
    (hzl : zl = E.rLocal o z.val) {d x y : ℝ} {qf : ℚ} (hd : MissWeight wt (S.detCost a t.r p zl) d)
    (hx : MissWeight wt (S.missCost a t.r p) x) (hy : S.flsCost t.r = fin qf ∧ y = wt qf)
    (hpos : 0 < d + x + y) {dflt : Rep R} {v : Comp P R}
    (hv : compOf E S prm pick fuel wt s1.heap (initReps scan rcid dflt) c = some v)
    {u : Tgt P} (hu : v.ts[k]? = some u) :
    ∃ cid d' x' y', Kept prm.wlim d x y d' x' y' ∧ 0 < d' + x' + y' ∧
      u = ⟨t.id, if 1 / 1000000 ≤ (d' + x') / (d' + x' + y') then (d' + x') / (d' + x' + y') else 0,
      E.toGlobal (if 1 / 1000000 ≤ (d' + x') / (d' + x' + y') then
        E.join p [d' / (d' + x' + y'), x' / (d' + x' + y')] [S.upd a p zl, S.missPdf a p] else p), cid,
      if 1 / 1000000 ≤ (d' + x') / (d' + x' + y') then 'c' else t.la⟩ := by
  obtain ⟨hct, hcr⟩ := pair_cluster hbox hf hz hs e hcm (List.mem_of_getElem? hk) ⟨t, z, ht, hj, hit⟩
    (by
      rintro i ⟨t', z', g1, g2, g3⟩
      rw [ht] at g1
      cases g1
      exact hone i z' g2 g3)
    (by
      rintro b ⟨t', z', g1, g2, g3⟩
      rw [hj] at g2
      cases g2
      exact hmine b t' g1 g3)
  obtain ⟨cls', s1', rcid', p1, p2, p3, p4, p5, p6, p7, p8, p9, p10⟩ := prepare_ok hbox hf hz hs
  rw [e, Option.some.injEq, Prod.mk.injEq, Prod.mk.injEq] at p1
  obtain ⟨rfl, rfl, rfl⟩ := p1
  obtain ⟨t1, g1, g2, g3, g4, g5⟩ := p9 a t ht
  obtain ⟨hy1, rfl⟩ := hy
  have hk0 : k = 0 := by
    have := (List.getElem?_eq_some_iff.1 hk).1
    rw [hct] at this
    simpa using this
  subst hk0
  have hzv : (initReps scan rcid dflt j).val = z.val := by
    simp [initReps, List.getD_eq_getElem?_getD, hj]
  have hv' : compute E S prm pick fuel wt [(a, t1)] [z.val] = some v := by
    unfold compOf at hv
    rw [hct, hcr] at hv
    simpa only [readAll, g1, List.map_cons, List.map_nil, hzv] using hv
  obtain ⟨d', x', y', hK, hW, _, hts⟩ := pair_compute hp hwt hwt0 (t := t1) (z := z.val) (o := o) (p := p)
    (zl := zl) (by rw [g4]; exact ho) (by rw [g4]; exact hpp) hzl (d := d) (x := x) (qf := qf)
    (by rw [g3]; exact hd) (by rw [g3]; exact hx) (by rw [g3]; exact hy1) hpos hw hn hv'
  rw [hts] at hu
  simp only [List.getElem?_cons_zero, Option.some.injEq] at hu
  refine ⟨t1.cid, d', x', y', hK, hW, ?_⟩
  rw [← hu, g2, g5]

/-- A target that is not viable after the correction is gone: what is at its address afterwards was born
in this scan and has a new identifier. -/
theorem fate_gone {E : Env P R O} (hbox : BoxOk E) {prm : Params} {fuel : Nat} {s : St P} (hs : Inv E s)
    {S : Sensor P R} {ch : Choices} {scan : List (Rep R)} {dflt : Rep R}
    (hok : CallOk E (.correct S ch scan dflt)) {s' : St P} {reps : Nat → Rep R}
    (e' : correct E S prm ch fuel scan dflt s = some (s', reps)) {a : Nat}
    (hg : Gated E S scan s a) {cls : List Cl} {s1 : St P} {rcid : Nat → Nat}
    (h1 : prepare E S scan s = some (cls, s1, rcid)) {c : Cl} {v : Comp P R} {k : Nat} {u : Tgt P}
    (hcm : c ∈ cls) (hk : c.targets[k]? = some a)
    (hv : compOf E S prm ch.pick fuel ch.wt s1.heap (initReps scan rcid dflt) c = some v)
    (hu : v.ts[k]? = some u) (hbad : u.r < prm.rlim ∨ prm.covlim < E.covNorm u.pdf) :
    ∀ w, s'.heap a = some w → ∃ k < scan.length, w.id = (s.idc + k) % 2 ^ 32 := by
  intro w hw'
  obtain ⟨hf, hch, hz⟩ := hok
  obtain ⟨cls', s1', rcid', new, d1, d2, d3, d4⟩ := correct_origin hbox hf hch hz hs e'
  obtain ⟨cls2, s2, rcid2, p1, p2, p3, p4, p5, p6, _⟩ := prepare_ok hbox hf hz hs.ok
  have q1 := d1.prep
  rw [h1, Option.some.injEq, Prod.mk.injEq, Prod.mk.injEq] at p1 q1
  obtain ⟨rfl, rfl, rfl⟩ := p1
  obtain ⟨rfl, rfl, rfl⟩ := q1
  by_cases ha : a ∈ new
  · obtain ⟨m, hm⟩ := List.mem_iff_getElem?.1 ha
    obtain ⟨j, z, _, hh⟩ := d1.new_born hm
    have hlt := (List.getElem?_eq_some_iff.1 hm).1
    rw [d1.len] at hlt
    rw [hw'] at hh
    injection hh with hh
    subst hh
    exact ⟨m, hlt.trans_le (births_length hch.ord p6), rfl⟩
  · exfalso
    obtain ⟨hvi, t', c', v', k', ht', _, hc', hk', hv', hu2⟩ := d4 a ha hg w hw'
    obtain ⟨hnd, hdis⟩ := List.nodup_flatMap.1 p2.tnd
    obtain rfl : c' = c := by
      by_contra hne
      haveI : Std.Symm (Function.onFun List.Disjoint Cl.targets) :=
        ⟨fun x y h => List.Disjoint.symm h⟩
      have := hdis.forall hc' hcm hne
      exact this (List.mem_of_getElem? hk') (List.mem_of_getElem? hk)
    obtain rfl : k' = k := by
      have l1 := (List.getElem?_eq_some_iff.1 hk').1
      exact (List.getElem?_inj l1 (hnd c' hcm)).1 (hk'.trans hk.symm)
    rw [hv] at hv'
    cases hv'
    rw [hu] at hu2
    cases hu2
    unfold viable at hvi
    rcases hbad with h | h
    · rw [if_pos h] at hvi; cases hvi
    · by_cases h6 : u.r < prm.rlim
      · rw [if_pos h6] at hvi; cases hvi
      · rw [if_neg h6, if_pos h] at hvi; cases hvi

/-- **C105, one scan** What a scan does to a target and a report that touch only each other, whatever
else is in the scan and in the tracker.  In their common frame let `d`, `x`, `y` be the weights of
"detected", "missed" and "not there".  The loop keeps all three, or all but a smallest one (`Kept`); with
what is kept the new existence probability is `(d' + x') / (d' + x' + y')` (or 0 below 1e-6), and the
density is the mixture of the corrected one and that of a missed target with weights in the ratio
`d' : x'`.  If the new value is viable the target lives on with it, otherwise it is gone. -/
theorem C105_seen {E : Env P R O} (hbox : BoxOk E) (prm : Params) (fuel : Nat)
    (calls : List (Call P R)) (hc : ∀ d ∈ calls, CallOk E d) (s : St P)
    (e : run E prm fuel calls St.empty = some s) (S : Sensor P R) (ch : Choices)
    (scan : List (Rep R)) (dflt : Rep R) (hok : CallOk E (.correct S ch scan dflt))
    (hp : ∀ r c, PickOk (ch.pick r c)) (hwt : Antitone ch.wt) (hwt0 : ∀ q, 0 ≤ ch.wt q) (s' : St P)
    (reps : Nat → Rep R) (e' : correct E S prm ch fuel scan dflt s = some (s', reps)) (a : Nat)
    (t : Tgt P) (ht : s.heap a = some t) {j : Nat} {z : Rep R}
    (hj : scan[j]? = some z) (hit : (E.rbox z.val).Touch (E.box t.pdf))
    (hone : ∀ i z', scan[i]? = some z' → (E.rbox z'.val).Touch (E.box t.pdf) → i = j)
    (hmine : ∀ b t', s.heap b = some t' → (E.rbox z.val).Touch (E.box t'.pdf) → b = a)
    (hw : prm.wlim ≤ 1) (hn : 2 < prm.nhypMax) {o : O} {p : P} {zl : R}
    (ho : o = E.center [E.rpos z.val, E.pos t.pdf]) (hpp : p = E.toLocal o t.pdf)
    (hzl : zl = E.rLocal o z.val) {d x y : ℝ} {qf : ℚ}
    (hd : MissWeight ch.wt (S.detCost a t.r p zl) d)
    (hx : MissWeight ch.wt (S.missCost a t.r p) x) (hy : S.flsCost t.r = fin qf ∧ y = ch.wt qf)
    (hpos : 0 < d + x + y) :
    ∃ (u : Tgt P) (d' x' y' : ℝ), u.id = t.id ∧ Kept prm.wlim d x y d' x' y' ∧ 0 < d' + x' + y' ∧
      ((1 / 1000000 ≤ (d' + x') / (d' + x' + y') ∧ u.r = (d' + x') / (d' + x' + y') ∧
          u.pdf = E.toGlobal (E.join p [d' / (d' + x' + y'), x' / (d' + x' + y')]
            [S.upd a p zl, S.missPdf a p]) ∧ u.la = 'c') ∨
        ((d' + x') / (d' + x' + y') < 1 / 1000000 ∧ u.r = 0 ∧ u.pdf = E.toGlobal p ∧ u.la = t.la)) ∧
      (prm.rlim ≤ u.r → E.covNorm u.pdf ≤ prm.covlim → s'.heap a = some u ∧ a ∈ s'.targets) ∧
      (u.r < prm.rlim ∨ prm.covlim < E.covNorm u.pdf → ∀ w, s'.heap a = some w →
        ∃ k < scan.length, w.id = (s.idc + k) % 2 ^ 32) := by
  have hs := run_inv hbox (Inv.empty E) hc e
  have hg : Gated E S scan s a := ⟨t, ht, Or.inr ⟨z, List.mem_of_getElem? hj, hit⟩⟩
  obtain ⟨cls, s1, rcid, h1, c, v, k, u, hcm, hk, hv, hu, hid, hlive, _⟩ :=
    C28_correct_fate hbox prm fuel calls hc s e S ch scan dflt hok s' reps e' a t ht hg
  obtain ⟨hf, hch, hz⟩ := hok
  obtain ⟨cid, d', x', y', hK, hW, hu'⟩ := pair_stored hbox hp hwt hwt0 hf hz hs.ok h1 hcm hk ht hj hit
    hone hmine hw hn ho hpp hzl hd hx hy hpos hv hu
  have hgone := fate_gone hbox hs ⟨hf, hch, hz⟩ e' hg h1 hcm hk hv hu
  refine ⟨u, d', x', y', hid, hK, hW, ?_, hlive, hgone⟩
  subst hu'
  by_cases hq : 1 / 1000000 ≤ (d' + x') / (d' + x' + y')
  · left
    exact ⟨hq, if_pos hq, congrArg E.toGlobal (if_pos hq), if_pos hq⟩
  · right
    exact ⟨lt_of_not_ge hq, if_neg hq, congrArg E.toGlobal (if_neg hq), if_neg hq⟩

end Verif.Tracker
