import Verif.LapF.Basic
import Verif.Lap.Arr
import Mathlib.Tactic.NormNum

/-! # Augmenting row reduction in rounded arithmetic -/

namespace Verif.LapF

open Verif.Lap Verif.Lap.XR

variable {n m : Nat}

theorem findUmins_spec (A : Arith) (crow v : Fin m → XR) (hh : ∀ j, IsC (A.sub (crow j) (v j)))
    (hm : 0 < m) :
    ∃ umin usub j1 j2, findUmins A crow v = some (umin, usub, j1, j2) ∧
      Umins (fun j => A.sub (crow j) (v j)) (List.finRange m) (umin, usub, j1, j2) := by
  unfold findUmins
  have hnd := List.nodup_finRange m
  have hall : ∀ j : Fin m, j ∈ List.finRange m := List.mem_finRange
  revert hnd hall
  cases hl : List.finRange m with
  | nil => intro _ hall; exact absurd (hall ⟨0, hm⟩) (by simp)
  | cons j0 js =>
    intro hnd _
    have h0 : Umins (fun j => A.sub (crow j) (v j)) [j0]
        (A.sub (crow j0) (v j0), pinf, j0, none) := by
      refine ⟨by simp, rfl, ?_, Or.inl ⟨rfl, rfl⟩, ?_⟩
      · intro j hj; rw [List.mem_singleton.1 hj]; exact Le.refl (hh j0)
      · intro j hj hne; exact absurd (List.mem_singleton.1 hj) hne
    exact ⟨_, _, _, _, rfl, foldl_umins hh js h0 hnd⟩

/-- Invariant of the row reduction: prices are not positive, and in its row the entry assigned is
minimal up to `ε`. -/
structure EInv (C : Cost n m) (ε : ℚ) (s : St n m) : Prop extends VInv C s where
  nonpos : ∀ j q, s.v j = XR.fin q → q ≤ 0
  tight : ∀ j i, s.colsol j = some i → ∀ a, s.v j = XR.fin a →
    ∀ j' b, IsFin (C i j') → s.v j' = XR.fin b → (C i j).val - a ≤ (C i j').val - b + ε

/-- Assigning the unassigned row `i` to column `j` with a price that is not raised. -/
theorem EInv.assign {C : Cost n m} {ε : ℚ} (hε : 0 ≤ ε) {s : St n m} (h : EInv C ε s) (i : Fin n)
    (hi : ¬ Asg s i) (j : Fin m) (hC : IsFin (C i j)) (q : ℚ) (hq : s.v j = XR.fin q) (x : XR)
    (hx : (∃ q', x = XR.fin q' ∧ q' ≤ q ∧ ∀ j' b, j' ≠ j → IsFin (C i j') → s.v j' = XR.fin b →
        (C i j).val - q' ≤ (C i j').val - b + ε) ∨
      (x = XR.ninf ∧ ∀ j', j' ≠ j → IsFin (C i j') → s.v j' = XR.ninf)) :
    EInv C ε ⟨Function.update s.rowsol i (some j), Function.update s.colsol j (some i),
      Function.update s.v j x⟩ := by
  have hq0 := h.nonpos j q hq
  have hxq : ∀ b, x = XR.fin b → b ≤ q := by
    rintro b rfl
    rcases hx with ⟨q', e, hle, _⟩ | ⟨e, _⟩
    · injection e with e; rw [e]; exact hle
    · cases e
  refine ⟨h.toVInv.assign i hi j hC q hq x ?_, ?_, ?_⟩
  · rcases hx with ⟨q', e, _⟩ | hx
    · exact Or.inl ⟨q', e⟩
    · exact Or.inr hx
  · intro j' b hb
    simp only at hb
    by_cases hjj : j' = j
    · subst hjj
      rw [Function.update_self] at hb
      exact (hxq b hb).trans hq0
    · rw [Function.update_of_ne hjj] at hb; exact h.nonpos j' b hb
  · intro j1 i1 h1 a ha j' b hCf hb
    simp only at h1 ha hb
    by_cases hj1 : j1 = j
    · subst hj1
      rw [Function.update_self] at h1 ha
      obtain rfl := Option.some.inj h1
      rcases hx with ⟨q', e, hle, ht⟩ | ⟨e, _⟩
      · rw [ha] at e
        injection e with e
        subst e
        by_cases hj' : j' = j1
        · subst hj'
          rw [Function.update_self, ha] at hb
          injection hb with hb
          rw [hb]
          linarith
        · rw [Function.update_of_ne hj'] at hb
          exact ht j' b hj' hCf hb
      · rw [e] at ha; cases ha
    · rw [Function.update_of_ne hj1] at h1 ha
      by_cases hj' : j' = j
      · subst hj'
        rw [Function.update_self] at hb
        have := h.tight j1 i1 h1 a ha j' q hCf hq
        have := hxq b hb
        linarith
      · rw [Function.update_of_ne hj'] at hb
        exact h.tight j1 i1 h1 a ha j' b hCf hb

/-- A row without a column has a finite entry in a column with a high price. -/
theorem high_column {C : Cost n m} {s : St n m} {ε S K : ℚ} {D : Nat} (h : EInv C ε s)
    (hs : Scaled C D K) (hε : 0 ≤ ε) (hS : 2 * K + ε ≤ S) {τ : Fin n → Fin m} (hτ : Feasible C τ)
    (i : Fin n) (hi : ¬ Asg s i) :
    ∃ j q, IsFin (C i j) ∧ s.v j = XR.fin q ∧ -((m + 1) * S : ℚ) ≤ q := by
  classical
  have hS0 : 0 ≤ S := by have := hs.nn; linarith
  have key : ∀ k : Nat, (∃ j q, IsFin (C i j) ∧ s.v j = XR.fin q ∧ -(k * S : ℚ) ≤ q) ∨
      k ≤ (Finset.univ.filter fun j => ∃ q, s.v j = XR.fin q ∧ -(k * S : ℚ) ≤ q).card := by
    intro k
    induction k with
    | zero => exact Or.inr (Nat.zero_le _)
    | succ k ih =>
      have hmono : -((k + 1 : ℕ) * S : ℚ) ≤ -(k * S : ℚ) := by
        push_cast; nlinarith
      rcases ih with ⟨j, q, h1, h2, h3⟩ | ih
      · exact Or.inl ⟨j, q, h1, h2, hmono.trans h3⟩
      · obtain ⟨i', j, hj, hC, h2⟩ := hall_escape_of_inj h.toVInv.inj hτ i hi
          (Finset.univ.filter fun j => ¬ ∃ q, s.v j = XR.fin q ∧ -(k * S : ℚ) ≤ q) (by
            intro j hj
            have hj' := (Finset.mem_filter.1 hj).2
            cases hc : s.colsol j with
            | some i' => exact ⟨i', rfl⟩
            | none =>
              refine absurd ⟨0, h.free j hc, ?_⟩ hj'
              have : (0:ℚ) ≤ k * S := by positivity
              linarith)
        have hj' : ∃ q, s.v j = XR.fin q ∧ -(k * S : ℚ) ≤ q := by
          by_contra hc
          exact hj (Finset.mem_filter.2 ⟨Finset.mem_univ _, hc⟩)
        obtain ⟨q, hq, hkq⟩ := hj'
        rcases h2 with rfl | ⟨j', hj1, hj2⟩
        · exact Or.inl ⟨j, q, hC, hq, hmono.trans hkq⟩
        · right
          have hj1' := (Finset.mem_filter.1 hj1).2
          have hfin : IsFin (s.v j') := by
            refine (h.isV j').resolve_left fun hn => ?_
            obtain ⟨rank, hr⟩ := h.forced
            have := (hr j' i' hn hj2 j hC).1
            rw [hq] at this; cases this
          obtain ⟨a, ha⟩ := hfin
          have ht := h.tight j' i' hj2 a ha j q hC hq
          obtain ⟨c1, hc1⟩ := h.finC j' i' hj2
          obtain ⟨c2, hc2⟩ := hC
          have b1 := abs_le.1 (hs.le i' j' c1 hc1)
          have b2 := abs_le.1 (hs.le i' j c2 hc2)
          rw [hc1, hc2] at ht
          simp only [val_fin] at ht
          have ha' : -((k + 1 : ℕ) * S : ℚ) ≤ a := by
            push_cast; linarith
          have hsub : insert j'
              (Finset.univ.filter fun j => ∃ q, s.v j = XR.fin q ∧ -(k * S : ℚ) ≤ q) ⊆
              (Finset.univ.filter fun j => ∃ q, s.v j = XR.fin q ∧
                -((k + 1 : ℕ) * S : ℚ) ≤ q) := by
            intro x hx
            rcases Finset.mem_insert.1 hx with rfl | hx
            · exact Finset.mem_filter.2 ⟨Finset.mem_univ _, a, ha, ha'⟩
            · obtain ⟨_, b, hb1, hb2⟩ := Finset.mem_filter.1 hx
              exact Finset.mem_filter.2 ⟨Finset.mem_univ _, b, hb1, hmono.trans hb2⟩
          have hcard := Finset.card_le_card hsub
          rw [Finset.card_insert_of_notMem (by
            intro hmem
            exact hj1' (Finset.mem_filter.1 hmem).2)] at hcard
          omega
  rcases key (m + 1) with ⟨j, q, h1, h2, h3⟩ | hcard
  · exact ⟨j, q, h1, h2, by push_cast at h3; exact h3⟩
  · exfalso
    have := Finset.card_le_univ
      (Finset.univ.filter fun j => ∃ q, s.v j = XR.fin q ∧ -((m + 1 : ℕ) * S : ℚ) ≤ q)
    rw [Fintype.card_fin] at this
    omega

/-! ## Prices stay in range -/

open Classical in
/-- Number of prices below `-B`. -/
noncomputable def cnt (B : ℚ) (v : Fin m → XR) : Nat :=
  (Finset.univ.filter fun j => ∃ q, v j = XR.fin q ∧ q < -B).card

theorem cnt_le (B : ℚ) (v : Fin m → XR) : cnt B v ≤ m := by
  classical
  have := Finset.card_le_univ (Finset.univ.filter fun j => ∃ q, v j = XR.fin q ∧ q < -B)
  rw [Fintype.card_fin] at this
  unfold cnt
  convert this

/-- Each price below `-B` is below the others by at most `S`. -/
def Low (B S : ℚ) (v : Fin m → XR) : Prop :=
  ∀ j q, v j = XR.fin q → -(B + cnt B v * S) ≤ q

theorem Low.update {B S : ℚ} (hS : 0 ≤ S) {v : Fin m → XR} (h : Low B S v) {j : Fin m} {q : ℚ}
    (hq : v j = XR.fin q) (hqB : -B ≤ q) {x : XR}
    (hx : ∀ q', x = XR.fin q' → -(B + cnt B v * S) - S ≤ q') :
    Low B S (Function.update v j x) := by
  classical
  have hsub : (Finset.univ.filter fun k => ∃ q, v k = XR.fin q ∧ q < -B) ⊆
      (Finset.univ.filter fun k => ∃ q, Function.update v j x k = XR.fin q ∧ q < -B) := by
    intro k hk
    obtain ⟨_, b, hb, hlt⟩ := Finset.mem_filter.1 hk
    have hkj : k ≠ j := by
      rintro rfl
      rw [hq] at hb
      injection hb with hb
      linarith
    exact Finset.mem_filter.2 ⟨Finset.mem_univ _, b, by rw [Function.update_of_ne hkj]; exact hb, hlt⟩
  have hle : cnt B v ≤ cnt B (Function.update v j x) := by
    have := Finset.card_le_card hsub
    unfold cnt
    convert this
  have hle' : (cnt B v : ℚ) * S ≤ cnt B (Function.update v j x) * S :=
    mul_le_mul_of_nonneg_right (by exact_mod_cast hle) hS
  intro k b hb
  by_cases hkj : k = j
  · subst hkj
    rw [Function.update_self] at hb
    by_cases hbB : b < -B
    · have hlt : cnt B v + 1 ≤ cnt B (Function.update v k x) := by
        have h1 : insert k (Finset.univ.filter fun k => ∃ q, v k = XR.fin q ∧ q < -B) ⊆
            (Finset.univ.filter fun i => ∃ q, Function.update v k x i = XR.fin q ∧ q < -B) := by
          intro i hi
          rcases Finset.mem_insert.1 hi with rfl | hi
          · exact Finset.mem_filter.2 ⟨Finset.mem_univ _, b, by rw [Function.update_self]; exact hb,
              hbB⟩
          · exact hsub hi
        have h2 := Finset.card_le_card h1
        rw [Finset.card_insert_of_notMem (by
          intro hmem
          obtain ⟨_, c, hc, hclt⟩ := Finset.mem_filter.1 hmem
          rw [hq] at hc
          injection hc with hc
          linarith)] at h2
        unfold cnt
        convert h2
      have hlt' : ((cnt B v : ℚ) + 1) * S ≤ cnt B (Function.update v k x) * S :=
        mul_le_mul_of_nonneg_right (by exact_mod_cast hlt) hS
      have := hx b hb
      linarith
    · have : (0:ℚ) ≤ cnt B (Function.update v k x) * S := by positivity
      linarith
  · rw [Function.update_of_ne hkj] at hb
    have := h k b hb
    linarith

/-! ## One step -/

/-- The invariant of the row reduction with its bounds. -/
structure AInv (C : Cost n m) (D : Nat) (K δ : ℚ) (s : St n m) : Prop where
  inv : EInv C (4 * δ) s
  grid : Grid D s.v
  low : Low ((m + 2) * (2 * K + 4 * δ)) (2 * K + 4 * δ) s.v

/-- What one step of the row reduction achieves. -/
structure StepOk (C : Cost n m) (D B : Nat) (K δ : ℚ) (i : Fin n) (s s' : St n m)
    (dis : Displaced n) : Prop where
  inv : AInv C D K δ s'
  asg : ∀ i', Asg s' i' ↔ i' = i ∨ (Asg s i' ∧ dis ≠ .again i' ∧ dis ≠ .later i')
  was : ∀ i', dis = .again i' ∨ dis = .later i' → Asg s i'
  le : Phi D B s'.v ≤ Phi D B s.v
  lt : ∀ i', dis = .again i' → Phi D B s'.v < Phi D B s.v

theorem arrStep_spec {A : Arith} {D : Nat} {R δ K : ℚ} (hA : Rounds A D R δ) {C : Cost n m}
    (hC : CostOk C) (hs : Scaled C D K) (hR : (2 * m + 3) * (2 * K + 4 * δ) ≤ R) {B : Nat}
    (hB : (m + 2) * (2 * K + 4 * δ) ≤ B)
    {τ : Fin n → Fin m} (hτ : Feasible C τ) {s : St n m} (h : AInv C D K δ s)
    (i : Fin n) (hi : ¬ Asg s i) :
    ∃ s' dis, arrStep A C i s = some (s', dis) ∧ StepOk C D B K δ i s s' dis := by
  have hK := hs.nn
  have hδ := hA.nn
  obtain ⟨S, hSdef⟩ : ∃ S, S = 2 * K + 4 * δ := ⟨_, rfl⟩
  have hS0 : 0 ≤ S := by linarith
  have hlow := h.low
  rw [← hSdef] at hR hB hlow
  have hI := h.inv
  have hmq : (0:ℚ) ≤ m := Nat.cast_nonneg m
  -- every finite price is in `[-V, 0]`
  obtain ⟨V, hVdef⟩ : ∃ V, V = (m + 2) * S + cnt ((m + 2) * S) s.v * S := ⟨_, rfl⟩
  have hVle : V ≤ (2 * m + 2) * S := by
    have h1 : (cnt ((m + 2) * S) s.v : ℚ) ≤ m := by exact_mod_cast cnt_le _ s.v
    have h2 := mul_le_mul_of_nonneg_right h1 hS0
    rw [hVdef]; linarith
  have hvlow : ∀ j q, s.v j = fin q → -V ≤ q := by
    intro j q hq; rw [hVdef]; exact hlow j q hq
  have hV0 : 0 ≤ V := by rw [hVdef]; positivity
  have hRV : V + S ≤ R := by
    have : (2 * m + 3) * S = (2 * m + 2) * S + S := by ring
    linarith
  have hpr : Prices D V s.v := by
    intro j q hq
    have := hI.nonpos j q hq
    have := hvlow j q hq
    exact ⟨h.grid j q hq, by rw [abs_le]; constructor <;> linarith⟩
  -- the computed reduced costs
  have hredc := fun j => red_cases hA hC hs hI.isV hpr (by linarith) (by linarith) i j
  have hh : ∀ j, IsC (A.sub (C i j) (s.v j)) := by
    intro j
    rcases hredc j with ⟨e, _⟩ | ⟨_, r, e, _⟩
    · exact Or.inl e
    · exact Or.inr ⟨r, e⟩
  have hred : ∀ j c q, C i j = fin c → s.v j = fin q →
      ∃ r, A.sub (C i j) (s.v j) = fin r ∧ |r - (c - q)| ≤ δ ∧ OnGrid D r := by
    intro j c q hc hq
    rcases hredc j with ⟨_, e⟩ | ⟨_, r, e, h1, h2⟩
    · exact absurd ⟨⟨c, hc⟩, ⟨q, hq⟩⟩ e
    · rw [redv, hc, hq, val_fin, val_fin] at h1
      exact ⟨r, e, h1, h2⟩
  have hredf : ∀ j, IsFin (A.sub (C i j) (s.v j)) → FinAt C s.v i j := by
    rintro j ⟨x, hx⟩
    rcases hredc j with ⟨e, _⟩ | ⟨e, _⟩
    · rw [e] at hx; cases hx
    · exact e
  obtain ⟨jh, qh, hCh, hvh, hqh⟩ := high_column (S := S) hI hs (by linarith) (by linarith) hτ i hi
  obtain ⟨umin, usub, j1, j2, hf, hu⟩ := findUmins_spec A (C i) s.v hh jh.pos
  have hmin : umin = A.sub (C i j1) (s.v j1) := hu.min
  -- the minimum is finite
  have hfinmin : IsFin umin := by
    have := hu.le jh (List.mem_finRange _)
    simp only at this
    obtain ⟨r, hr, _⟩ := hred jh _ _ hCh.eq hvh
    obtain ⟨a, ha, _⟩ := this _ hr
    exact ⟨a, ha⟩
  have hCV := hredf j1 (hmin ▸ hfinmin)
  obtain ⟨c, hc⟩ := hCV.1
  obtain ⟨q, hq⟩ := hCV.2
  obtain ⟨w, hw, hwe, hwg⟩ := hred j1 c q hc hq
  have hminv : umin = XR.fin w := by rw [hmin, hw]
  rw [abs_le] at hwe
  have hcK := abs_le.1 (hs.le i j1 c hc)
  have hq0 := hI.nonpos j1 q hq
  have hqV := hvlow j1 q hq
  -- the reduced costs of the other columns
  have hother : ∀ j' b, IsFin (C i j') → s.v j' = fin b → w ≤ (C i j').val - b + δ := by
    intro j' b hCf hb
    have := hu.le j' (List.mem_finRange _)
    obtain ⟨c', hc'⟩ := hCf
    simp only at this
    obtain ⟨r, hr, h1, _⟩ := hred j' c' b hc' hb
    rw [hr, hminv] at this
    obtain ⟨a, ha, hle⟩ := this _ rfl
    injection ha with ha
    rw [abs_le] at h1
    rw [hc', val_fin, ha]
    linarith
  -- the price of the chosen column is high
  have hqB0 : -((m + 2) * S) ≤ q := by
    have h1 := hother jh qh hCh hvh
    obtain ⟨c2, hc2⟩ := hCh
    have b2 := abs_le.1 (hs.le i jh c2 hc2)
    rw [hc2, val_fin] at h1
    have : (m + 2) * S = (m + 1) * S + S := by ring
    linarith
  have hqB : -(B : ℚ) ≤ q := by linarith
  have hmemD : ∀ j : Fin m, j ∈ List.finRange m := List.mem_finRange
  have hasgen : ∀ (j : Fin m) (x : Fin m → XR) (i' : Fin n),
      Asg ⟨Function.update s.rowsol i (some j), Function.update s.colsol j (some i), x⟩ i' ↔
        i' = i ∨ (Asg s i' ∧ s.colsol j ≠ some i') := fun j x i' => asg_assign hI.toVInv i j x i'
  have hCfin1 : IsFin (C i j1) := ⟨c, hc⟩
  -- if the second smallest is finite
  have hsubfin : ∀ b, usub = fin b → ∃ k c3 q3 y z, k ≠ j1 ∧ j2 = some k ∧ C i k = fin c3 ∧
      s.v k = fin q3 ∧ |b - (c3 - q3)| ≤ δ ∧ w ≤ b ∧ A.rs b w = fin y ∧ A.rs q y = fin z ∧
      |y - (b - w)| ≤ δ ∧ |z - (q - y)| ≤ δ ∧ OnGrid D z := by
    intro b e
    rcases hu.sub with ⟨_, e2⟩ | ⟨k, _, hkne, ej2, e2⟩
    · simp only at e2; rw [e] at e2; cases e2
    · simp only at e2 ej2 hkne
      rw [e] at e2
      have hk := hredf k (e2 ▸ isFin_fin b)
      obtain ⟨c3, hc3⟩ := hk.1
      obtain ⟨q3, hq3⟩ := hk.2
      obtain ⟨r, hr, h1, hg⟩ := hred k c3 q3 hc3 hq3
      rw [hr] at e2
      injection e2 with e2
      subst e2
      have h1' := abs_le.1 h1
      have h2 : w ≤ b := by
        have := hu.le_sub
        simp only at this
        rw [e, hminv] at this
        obtain ⟨a, ha, hle⟩ := this _ rfl
        injection ha with ha
        rw [ha]; exact hle
      have b1 := abs_le.1 (hs.le i k c3 hc3)
      have b2 := hvlow k q3 hq3
      have b3 := hI.nonpos k q3 hq3
      obtain ⟨y, hy, hye, hyg⟩ := hA.sub b w hg hwg
        (by rw [abs_le]; constructor <;> linarith) (by rw [abs_le]; constructor <;> linarith)
      have hye' := abs_le.1 hye
      obtain ⟨z, hz, hze, hzg⟩ := hA.sub q y (h.grid j1 q hq) hyg
        (by rw [abs_le]; constructor <;> linarith) (by rw [abs_le]; constructor <;> linarith)
      exact ⟨k, c3, q3, y, z, hkne, ej2, hc3, hq3, h1, h2, hy, hz, hye, hze, hzg⟩
  unfold arrStep
  rw [hf]
  simp only
  by_cases hlow' : (A.sub (s.v j1) (A.sub usub umin)).lt (s.v j1) = true
  · -- the price is lowered
    rw [if_pos hlow']
    have hnew : (A.sub (s.v j1) (A.sub usub umin) = XR.ninf ∧
        ∀ j', j' ≠ j1 → IsFin (C i j') → s.v j' = XR.ninf) ∨
        (∃ q', A.sub (s.v j1) (A.sub usub umin) = XR.fin q' ∧ q' < q ∧ (∃ z : ℤ, q' * D = z) ∧
          -V - S ≤ q' ∧
          ∀ j' b, j' ≠ j1 → IsFin (C i j') → s.v j' = XR.fin b →
            (C i j1).val - q' ≤ (C i j').val - b + 4 * δ) := by
      rcases hu.subC hh with e | ⟨b, e⟩
      · simp only at e
        left
        rw [hq, e, hminv]
        refine ⟨rfl, ?_⟩
        intro j' hne hCf
        refine (hI.isV j').resolve_right ?_
        rintro ⟨p, hp⟩
        have := hu.le2 j' (hmemD j') hne
        simp only at this
        obtain ⟨r, hr, _⟩ := hred j' _ _ hCf.eq hp
        rw [e] at this
        obtain ⟨a, ha, _⟩ := this _ hr
        cases ha
      · simp only at e
        right
        obtain ⟨k, c3, q3, y, z, hkne, ej2, hc3, hq3, h1, h2, hy, hz, h3, h4, hzg⟩ := hsubfin b e
        rw [abs_le] at h1 h3 h4
        have b1 := abs_le.1 (hs.le i k c3 hc3)
        have b2 := hvlow k q3 hq3
        have hz' : A.sub (fin q) (A.sub (fin b) (fin w)) = fin z := by
          rw [Arith.sub_fin_fin, hy, Arith.sub_fin_fin, hz]
        rw [hq, e, hminv] at hlow' ⊢
        rw [hz'] at hlow' ⊢
        simp only [lt_fin_fin, decide_eq_true_eq] at hlow'
        refine ⟨z, rfl, hlow', hzg, by linarith, ?_⟩
        intro j' b' hne hCf hb'
        have := hu.le2 j' (hmemD j') hne
        simp only at this
        obtain ⟨c', hc'⟩ := hCf
        obtain ⟨r, hr, h5, _⟩ := hred j' c' b' hc' hb'
        rw [e, hr] at this
        obtain ⟨a, ha, hle⟩ := this _ rfl
        injection ha with ha
        rw [abs_le] at h5
        rw [hc, hc']
        simp only [val_fin]
        rw [← ha] at hle
        linarith
    have hphi : phi D B (A.sub (s.v j1) (A.sub usub umin)) < phi D B (s.v j1) := by
      rw [hq]
      refine phi_lt hA.pos (h.grid j1 q hq) hqB ?_
      rw [← hq]
      rcases hnew with ⟨e, _⟩ | ⟨q', e, hlt, hz, _⟩
      · exact Or.inl e
      · exact Or.inr ⟨q', e, hlt, hz⟩
    refine ⟨_, _, rfl, ⟨?_, ?_, ?_⟩, ?_, ?_, ?_, ?_⟩
    · refine hI.assign (by linarith) i hi j1 hCfin1 q hq _ ?_
      rcases hnew with ⟨e, h3⟩ | ⟨q', e, hlt, _, _, h3⟩
      · exact Or.inr ⟨e, h3⟩
      · exact Or.inl ⟨q', e, hlt.le, h3⟩
    · intro j b hb
      simp only at hb
      by_cases hj : j = j1
      · subst hj
        rw [Function.update_self] at hb
        rcases hnew with ⟨e, _⟩ | ⟨q', e, _, hz, _⟩
        · rw [e] at hb; cases hb
        · rw [e] at hb; injection hb with hb; rw [← hb]; exact hz
      · rw [Function.update_of_ne hj] at hb
        exact h.grid j b hb
    · rw [← hSdef]
      refine hlow.update hS0 hq hqB0 ?_
      intro q2 hq2
      rw [← hVdef]
      rcases hnew with ⟨e, _⟩ | ⟨q', e, _, _, hge, _⟩
      · rw [e] at hq2; cases hq2
      · rw [e] at hq2; injection hq2 with hq2; rw [← hq2]; exact hge
    · intro i'
      rw [hasgen]
      cases hcs : s.colsol j1 with
      | none => simp
      | some i0 => simp
    · intro i' hd
      cases hcs : s.colsol j1 with
      | none => rw [hcs] at hd; simp at hd
      | some i0 => rw [hcs] at hd; simp at hd; subst hd; exact ⟨j1, hcs⟩
    · exact (Phi_update_lt hphi).le
    · intro i' _
      exact Phi_update_lt hphi
  · -- minimum and subminimum are almost equal
    rw [if_neg hlow']
    obtain ⟨b, e, hbw⟩ : ∃ b, usub = XR.fin b ∧ b ≤ w + 2 * δ := by
      rcases hu.subC hh with e | ⟨b, e⟩
      · simp only at e
        rw [hq, e, hminv] at hlow'
        exact absurd rfl hlow'
      · simp only at e
        refine ⟨b, e, ?_⟩
        obtain ⟨k, c3, q3, y, z, hkne, ej2, hc3, hq3, h1, h2, hy, hz, h3, h4, hzg⟩ := hsubfin b e
        have hz' : A.sub (fin q) (A.sub (fin b) (fin w)) = fin z := by
          rw [Arith.sub_fin_fin, hy, Arith.sub_fin_fin, hz]
        rw [hq, e, hminv, hz'] at hlow'
        simp only [lt_fin_fin, decide_eq_true_eq] at hlow'
        rw [abs_le] at h3 h4
        linarith
    -- any column with an almost minimal reduced cost can be assigned
    have hinv : ∀ (k : Fin m) (c' q' : ℚ), C i k = XR.fin c' → s.v k = XR.fin q' →
        c' - q' ≤ w + 3 * δ → AInv C D K δ ⟨Function.update s.rowsol i (some k),
          Function.update s.colsol k (some i), s.v⟩ := by
      intro k c' q' hc' hq' he
      have := hI.assign (by linarith) i hi k ⟨c', hc'⟩ q' hq' (XR.fin q')
        (Or.inl ⟨q', rfl, le_refl _, by
          intro j' b' _ hCf hb'
          have := hother j' b' hCf hb'
          rw [hc', val_fin]
          linarith⟩)
      rw [← hq', update_self_fun] at this
      exact ⟨this, h.grid, h.low⟩
    cases hcs : s.colsol j1 with
    | none =>
      refine ⟨_, _, rfl, hinv j1 c q hc hq (by linarith), ?_, ?_, le_refl _, ?_⟩
      · intro i'
        rw [hasgen, hcs]
        simp
      · intro i' hd; simp at hd
      · intro i' hd; simp at hd
    | some i1 =>
      obtain ⟨k, c3, q3, y, z, hkne, ej2, hc3, hq3, h1, h2, hy, hz, h3, h4, hzg⟩ := hsubfin b e
      subst ej2
      rw [abs_le] at h1
      refine ⟨_, _, rfl, hinv k c3 q3 hc3 hq3 (by linarith), ?_, ?_, le_refl _, ?_⟩
      · intro i'
        rw [hasgen]
        cases hcs2 : s.colsol k with
        | none => simp
        | some i0 => simp
      · intro i' hd
        cases hcs2 : s.colsol k with
        | none => rw [hcs2] at hd; simp at hd
        | some i0 => rw [hcs2] at hd; simp at hd; subst hd; exact ⟨k, hcs2⟩
      · intro i' hd
        cases hcs2 : s.colsol k with
        | none => rw [hcs2] at hd; simp at hd
        | some i0 => rw [hcs2] at hd; simp at hd

/-! ## The loop -/

theorem arrLoop_spec {A : Arith} {D : Nat} {R δ K : ℚ} (hA : Rounds A D R δ) {C : Cost n m}
    (hC : CostOk C) (hs : Scaled C D K) (hR : (2 * m + 3) * (2 * K + 4 * δ) ≤ R) {B : Nat}
    (hB : (m + 2) * (2 * K + 4 * δ) ≤ B) {τ : Fin n → Fin m} (hτ : Feasible C τ) (pnf : Nat) :
    ∀ (M : Nat) (k numfree : Nat) (free : List (Fin n)) (s : St n m),
      Phi D B s.v + (pnf - k) = M → AInv C D K δ s → FreeOk s pnf k numfree free →
      ∃ (s' : St n m) (free' : List (Fin n)) (nf' : Nat),
        (∀ f, M < f → arrLoop A C pnf f k numfree free s = some (s', free', nf')) ∧
        AInv C D K δ s' ∧ FreeOk s' nf' 0 0 free' := by
  intro M
  induction M using Nat.strong_induction_on with
  | _ M ih =>
    intro k numfree free s hM h hf
    by_cases hk : k < pnf
    · have hkl : k < free.length := by rw [hf.len]; exact Nat.lt_of_lt_of_le hk hf.pn
      obtain ⟨i, hi⟩ : ∃ i, free[k]? = some i := ⟨free[k], List.getElem?_eq_getElem hkl⟩
      have hcons := pending_cons (numfree := numfree) hk hi
      have hnd := hf.nd
      rw [hcons, List.nodup_cons] at hnd
      have hmem := hf.mem
      rw [hcons] at hmem
      have hiu : ¬ Asg s i := (hmem i).1 (by simp)
      obtain ⟨s', dis, hstep, hok⟩ := arrStep_spec hA hC hs hR hB hτ h i hiu
      have hrest : ∀ i', i' ∈ pending pnf (k + 1) numfree free ↔ (¬ Asg s i' ∧ i' ≠ i) := by
        intro i'
        have := hmem i'
        rw [List.mem_cons] at this
        constructor
        · intro hm'
          exact ⟨this.1 (Or.inr hm'), fun e => hnd.1 (e ▸ hm')⟩
        · rintro ⟨h1, h2⟩
          exact (this.2 h1).resolve_left h2
      have hle := hok.le
      cases dis with
      | nothing =>
        have hf' : FreeOk s' pnf (k + 1) numfree free :=
          ⟨hf.len, by have := hf.nk; omega, by omega, hf.pn, hnd.2, by
            intro i'
            rw [hrest, hok.asg]
            simp [and_comm]⟩
        obtain ⟨t, fr, nf, hrun, hres⟩ := ih (Phi D B s'.v + (pnf - (k + 1))) (by omega)
          (k + 1) numfree free s' rfl hok.inv hf'
        refine ⟨t, fr, nf, ?_, hres⟩
        intro f hMf
        obtain ⟨f', rfl⟩ : ∃ f', f = f' + 1 := ⟨f - 1, by omega⟩
        simp only [arrLoop, if_pos hk, hi, hstep]
        exact hrun f' (by omega)
      | again i0 =>
        have hlt := hok.lt i0 rfl
        have hi0 : Asg s i0 := hok.was i0 (Or.inl rfl)
        have hf' : FreeOk s' pnf k numfree (free.set k i0) := by
          refine ⟨by rw [List.length_set]; exact hf.len, hf.nk, hf.kp, hf.pn, ?_, ?_⟩
          · rw [pending_set hk hkl hf.nk, List.nodup_cons]
            exact ⟨fun hm' => ((hrest i0).1 hm').1 hi0, hnd.2⟩
          · intro i'
            rw [pending_set hk hkl hf.nk, List.mem_cons, hrest, hok.asg]
            have hne : i0 ≠ i := fun e => hiu (e ▸ hi0)
            constructor
            · rintro (rfl | ⟨h1, h2⟩)
              · simp [hne]
              · simp [h1, h2]
            · intro h1
              by_cases e : i' = i0
              · exact Or.inl e
              · right
                refine ⟨fun ha => h1 (Or.inr ⟨ha, ?_, by simp⟩), fun e' => h1 (Or.inl e')⟩
                intro e'; injection e' with e'; exact e e'.symm
        obtain ⟨t, fr, nf, hrun, hres⟩ := ih (Phi D B s'.v + (pnf - k)) (by omega)
          k numfree (free.set k i0) s' rfl hok.inv hf'
        refine ⟨t, fr, nf, ?_, hres⟩
        intro f hMf
        obtain ⟨f', rfl⟩ : ∃ f', f = f' + 1 := ⟨f - 1, by omega⟩
        simp only [arrLoop, if_pos hk, hi, hstep]
        exact hrun f' (by omega)
      | later i0 =>
        have hi0 : Asg s i0 := hok.was i0 (Or.inr rfl)
        have hnl : numfree < free.length := by have := hf.nk; omega
        have hnk : numfree < k + 1 := by have := hf.nk; omega
        have hf' : FreeOk s' pnf (k + 1) (numfree + 1) (free.set numfree i0) := by
          refine ⟨by rw [List.length_set]; exact hf.len, by omega, by omega, hf.pn, ?_, ?_⟩
          · rw [pending_later hnl hnk]
            refine List.Nodup.append hnd.2 (by simp) ?_
            intro x hx hx'
            rw [List.mem_singleton.1 hx'] at hx
            exact ((hrest i0).1 hx).1 hi0
          · intro i'
            rw [pending_later hnl hnk, List.mem_append, List.mem_singleton, hrest, hok.asg]
            have hne : i0 ≠ i := fun e => hiu (e ▸ hi0)
            constructor
            · rintro (⟨h1, h2⟩ | rfl)
              · simp [h1, h2]
              · simp [hne]
            · intro h1
              by_cases e : i' = i0
              · exact Or.inr e
              · left
                refine ⟨fun ha => h1 (Or.inr ⟨ha, by simp, ?_⟩), fun e' => h1 (Or.inl e')⟩
                intro e'; injection e' with e'; exact e e'.symm
        obtain ⟨t, fr, nf, hrun, hres⟩ := ih (Phi D B s'.v + (pnf - (k + 1))) (by omega)
          (k + 1) (numfree + 1) (free.set numfree i0) s' rfl hok.inv hf'
        refine ⟨t, fr, nf, ?_, hres⟩
        intro f hMf
        obtain ⟨f', rfl⟩ : ∃ f', f = f' + 1 := ⟨f - 1, by omega⟩
        simp only [arrLoop, if_pos hk, hi, hstep, if_pos hnl]
        exact hrun f' (by omega)
    · have hkp : k = pnf := Nat.le_antisymm hf.kp (by omega)
      have hpend : pending pnf k numfree free = pending numfree 0 0 free := by
        unfold pending
        rw [hkp, List.drop_eq_nil_of_le (by rw [List.length_take]; omega)]
        simp
      refine ⟨s, free, numfree, ?_, h, hf.len, Nat.le_refl 0, Nat.zero_le _, ?_, ?_, ?_⟩
      · intro f hMf
        obtain ⟨f', rfl⟩ : ∃ f', f = f' + 1 := ⟨f - 1, by omega⟩
        simp only [arrLoop, if_neg hk]
      · have := hf.nk; have := hf.pn; omega
      · rw [← hpend]; exact hf.nd
      · rw [← hpend]; exact hf.mem

end Verif.LapF
