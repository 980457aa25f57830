import Verif.Lap.Basic
import Mathlib.Algebra.Order.Floor.Ring
import Mathlib.Data.Rat.Floor
import Mathlib.Algebra.BigOperators.Fin
import Mathlib.Algebra.Order.BigOperators.Ring.Finset
import Mathlib.Tactic.FieldSimp

/-! # Augmenting row reduction: specification, invariant and termination -/

namespace Verif.Lap

open XR

variable {n m : Nat}

/-! ## The two smallest reduced costs -/

/-- `r` describes the smallest and second smallest entry of `h` over the list `P`. -/
structure Umins (h : Fin m → XR) (P : List (Fin m)) (r : XR × XR × Fin m × Option (Fin m)) :
    Prop where
  mem : r.2.2.1 ∈ P
  min : r.1 = h r.2.2.1
  le : ∀ j ∈ P, Le r.1 (h j)
  sub : (r.2.2.2 = none ∧ r.2.1 = pinf) ∨
    ∃ k ∈ P, k ≠ r.2.2.1 ∧ r.2.2.2 = some k ∧ r.2.1 = h k
  le2 : ∀ j ∈ P, j ≠ r.2.2.1 → Le r.2.1 (h j)

theorem Umins.subC {h : Fin m → XR} (hh : ∀ j, IsC (h j)) {P} {r} (hr : Umins h P r) :
    IsC r.2.1 := by
  rcases hr.sub with ⟨_, e⟩ | ⟨k, _, _, _, e⟩
  · rw [e]; exact Or.inl rfl
  · rw [e]; exact hh k

theorem Umins.le_sub {h : Fin m → XR} {P} {r} (hr : Umins h P r) : Le r.1 r.2.1 := by
  rcases hr.sub with ⟨_, e⟩ | ⟨k, hk, _, _, e⟩
  · rw [e]; exact Le.pinf _
  · rw [e]; exact hr.le k hk

theorem uminsStep_spec {h : Fin m → XR} (hh : ∀ j, IsC (h j)) {P} {r} (hr : Umins h P r)
    (j : Fin m) (hj : j ∉ P) : Umins h (P ++ [j]) (uminsStep h r j) := by
  have hne : ∀ k ∈ P, k ≠ j := fun k hk e => hj (e ▸ hk)
  have hminC : IsC r.1 := by rw [hr.min]; exact hh _
  unfold uminsStep
  by_cases h1 : (h j).lt r.2.1 = true
  · rw [if_pos h1]
    have h1' := (lt_iff_not_le (hh j) (hr.subC hh)).1 h1
    have h1'' : Le (h j) r.2.1 := (Le.total (hh j) (hr.subC hh)).resolve_right h1'
    by_cases h2 : r.1.le (h j) = true
    · rw [if_pos h2]
      have h2' := (le_iff hminC (hh j)).1 h2
      refine ⟨by simp [hr.mem], hr.min, ?_, Or.inr ⟨j, by simp, ?_, rfl, rfl⟩, ?_⟩
      · intro k hk
        rcases List.mem_append.1 hk with hk | hk
        · exact hr.le k hk
        · rw [List.mem_singleton.1 hk]; exact h2'
      · exact (hne _ hr.mem).symm
      · intro k hk hkne
        rcases List.mem_append.1 hk with hk | hk
        · exact h1''.trans (hr.le2 k hk hkne)
        · rw [List.mem_singleton.1 hk]; exact Le.refl (hh j)
    · rw [if_neg h2]
      have h2' : Le (h j) r.1 := by
        rcases Le.total (hh j) hminC with h3 | h3
        · exact h3
        · exact absurd ((le_iff hminC (hh j)).2 h3) h2
      refine ⟨by simp, rfl, ?_, Or.inr ⟨r.2.2.1, by simp [hr.mem], hne _ hr.mem, rfl, hr.min⟩, ?_⟩
      · intro k hk
        rcases List.mem_append.1 hk with hk | hk
        · exact h2'.trans (hr.le k hk)
        · rw [List.mem_singleton.1 hk]; exact Le.refl (hh j)
      · intro k hk hkne
        rcases List.mem_append.1 hk with hk | hk
        · exact hr.le k hk
        · exact absurd (List.mem_singleton.1 hk) hkne
  · rw [if_neg h1]
    have h1' : Le r.2.1 (h j) := by
      by_contra hc
      exact h1 ((lt_iff_not_le (hh j) (hr.subC hh)).2 hc)
    refine ⟨by simp [hr.mem], hr.min, ?_, ?_, ?_⟩
    · intro k hk
      rcases List.mem_append.1 hk with hk | hk
      · exact hr.le k hk
      · rw [List.mem_singleton.1 hk]; exact hr.le_sub.trans h1'
    · rcases hr.sub with h3 | ⟨k, hk, h3⟩
      · exact Or.inl h3
      · exact Or.inr ⟨k, by simp [hk], h3⟩
    · intro k hk hkne
      rcases List.mem_append.1 hk with hk | hk
      · exact hr.le2 k hk hkne
      · rw [List.mem_singleton.1 hk]; exact h1'

theorem foldl_umins {h : Fin m → XR} (hh : ∀ j, IsC (h j)) (js : List (Fin m)) :
    ∀ {P} {r}, Umins h P r → (P ++ js).Nodup → Umins h (P ++ js) (js.foldl (uminsStep h) r) := by
  induction js with
  | nil => intro P r hr _; simpa using hr
  | cons j js ih =>
    intro P r hr hnd
    have hj : j ∉ P := by
      intro hj
      exact (List.disjoint_of_nodup_append hnd) hj (by simp)
    have := ih (uminsStep_spec hh hr j hj) (by simpa using hnd)
    simpa using this

theorem findUmins_spec (crow v : Fin m → XR) (hc : ∀ j, IsC (crow j)) (hv : ∀ j, IsV (v j))
    (hm : 0 < m) :
    ∃ umin usub j1 j2, findUmins crow v = some (umin, usub, j1, j2) ∧
      Umins (fun j => (crow j).sub (v j)) (List.finRange m) (umin, usub, j1, j2) := by
  unfold findUmins
  have hh : ∀ j, IsC ((crow j).sub (v j)) := fun j => sub_isC (hc j) (hv j)
  have hnd := List.nodup_finRange m
  have hall : ∀ j : Fin m, j ∈ List.finRange m := List.mem_finRange
  revert hnd hall
  cases hl : List.finRange m with
  | nil => intro _ hall; exact absurd (hall ⟨0, hm⟩) (by simp)
  | cons j0 js =>
    intro hnd _
    have h0 : Umins (fun j => (crow j).sub (v j)) [j0]
        ((crow j0).sub (v j0), pinf, j0, none) := by
      refine ⟨by simp, rfl, ?_, Or.inl ⟨rfl, rfl⟩, ?_⟩
      · intro j hj; rw [List.mem_singleton.1 hj]; exact Le.refl (hh j0)
      · intro j hj hne; exact absurd (List.mem_singleton.1 hj) hne
    exact ⟨_, _, _, _, rfl, foldl_umins hh js h0 hnd⟩

/-- What the solver relies on: if some reduced cost of the row is finite, `fu` returns the two
smallest reduced costs and their columns. -/
def FuOk (fu : FindUmins m) : Prop :=
  ∀ crow v : Fin m → XR, (∀ j, IsC (crow j)) → (∀ j, IsV (v j)) →
    (∃ j, IsFin ((crow j).sub (v j))) →
    ∃ umin usub j1 j2, fu crow v = some (umin, usub, j1, j2) ∧
      Umins (fun j => (crow j).sub (v j)) (List.finRange m) (umin, usub, j1, j2)

theorem findUmins_ok : FuOk (findUmins (m := m)) :=
  fun crow v hc hv ⟨j, _⟩ => findUmins_spec crow v hc hv j.pos

/-! ## A common denominator and a bound of the costs -/

/-- `D` is a common denominator of the finite entries and `K` a bound of their magnitude. -/
structure Scale (C : Cost n m) (D K : Nat) : Prop where
  pos : 0 < D
  int : ∀ i j q, C i j = XR.fin q → ∃ z : ℤ, q * D = z
  le : ∀ i j q, C i j = XR.fin q → -K ≤ q ∧ q ≤ K

theorem exists_scale (C : Cost n m) : ∃ D K, Scale C D K := by
  refine ⟨∏ p : Fin n × Fin m, (C p.1 p.2).val.den,
    ∑ p : Fin n × Fin m, (⌈|(C p.1 p.2).val|⌉).toNat, ?_, ?_, ?_⟩
  · exact Finset.prod_pos fun p _ => Rat.den_pos _
  · intro i j q hq
    have hd : (C i j).val.den ∣ ∏ p : Fin n × Fin m, (C p.1 p.2).val.den :=
      Finset.dvd_prod_of_mem (fun p : Fin n × Fin m => (C p.1 p.2).val.den)
        (Finset.mem_univ (i, j))
    obtain ⟨c, hc⟩ := hd
    rw [hc, hq]
    refine ⟨q.num * c, ?_⟩
    simp only [val_fin]
    push_cast
    have := Rat.mul_den_eq_num q
    rw [← mul_assoc, this]
  · intro i j q hq
    obtain ⟨g, hg⟩ : ∃ g : Fin n × Fin m → ℕ, g = fun p => (⌈|(C p.1 p.2).val|⌉).toNat :=
      ⟨_, rfl⟩
    have h1 : g (i, j) ≤ ∑ p, g p :=
      Finset.single_le_sum (fun _ _ => Nat.zero_le _) (Finset.mem_univ (i, j))
    have h1' : g (i, j) = (⌈|q|⌉).toNat := by rw [hg]; simp only [hq, val_fin]
    have h2 : |q| ≤ ((⌈|q|⌉).toNat : ℚ) := by
      have h3 : (0:ℤ) ≤ ⌈|q|⌉ := Int.ceil_nonneg (abs_nonneg q)
      have h4 : (((⌈|q|⌉).toNat : ℤ) : ℚ) = ((⌈|q|⌉ : ℤ) : ℚ) := by rw [Int.toNat_of_nonneg h3]
      have h5 := Int.le_ceil |q|
      rw [← h4] at h5
      exact_mod_cast h5
    rw [h1'] at h1
    have h6 : |q| ≤ ((∑ p, g p : ℕ) : ℚ) := h2.trans (by exact_mod_cast h1)
    rw [hg] at h6
    exact abs_le.1 h6

/-- All finite prices have denominator `D`. -/
def Grid (D : Nat) (v : Fin m → XR) : Prop := ∀ j q, v j = XR.fin q → ∃ z : ℤ, q * D = z

/-! ## Prices of columns chosen by an unassigned row are bounded below -/

theorem high_column {C : Cost n m} {s : St n m} (h : Inv C s) {D K : Nat}
    (hs : Scale C D K) {τ : Fin n → Fin m} (hτ : Feasible C τ) (i : Fin n) (hi : ¬ Asg s i) :
    ∃ j q, IsFin (C i j) ∧ s.v j = XR.fin q ∧ -((m + 1) * (2 * K) : ℚ) ≤ q := by
  classical
  have key : ∀ k : Nat, (∃ j q, IsFin (C i j) ∧ s.v j = XR.fin q ∧ -(k * (2 * K) : ℚ) ≤ q) ∨
      k ≤ (Finset.univ.filter fun j => ∃ q, s.v j = XR.fin q ∧ -(k * (2 * K) : ℚ) ≤ q).card := by
    intro k
    induction k with
    | zero => exact Or.inr (Nat.zero_le _)
    | succ k ih =>
      have hK : (0:ℚ) ≤ K := Nat.cast_nonneg K
      have hmono : -((k + 1 : ℕ) * (2 * K) : ℚ) ≤ -(k * (2 * K) : ℚ) := by
        push_cast; nlinarith
      rcases ih with ⟨j, q, h1, h2, h3⟩ | ih
      · exact Or.inl ⟨j, q, h1, h2, hmono.trans h3⟩
      · obtain ⟨i', j, hj, hC, h2⟩ := hall_escape h hτ i hi
          (Finset.univ.filter fun j => ¬ ∃ q, s.v j = XR.fin q ∧ -(k * (2 * K) : ℚ) ≤ q) (by
            intro j hj
            have hj' := (Finset.mem_filter.1 hj).2
            cases hc : s.colsol j with
            | some i' => exact ⟨i', rfl⟩
            | none =>
              refine absurd ⟨0, h.free j hc, ?_⟩ hj'
              have : (0:ℚ) ≤ k * (2 * K) := by positivity
              linarith)
        have hj' : ∃ q, s.v j = XR.fin q ∧ -(k * (2 * K) : ℚ) ≤ q := by
          by_contra hc
          exact hj (Finset.mem_filter.2 ⟨Finset.mem_univ _, hc⟩)
        obtain ⟨q, hq, hkq⟩ := hj'
        rcases h2 with rfl | ⟨j', hj1, hj2⟩
        · exact Or.inl ⟨j, q, hC, hq, hmono.trans hkq⟩
        · right
          have hj1' := (Finset.mem_filter.1 hj1).2
          have hfin : IsFin (s.v j') := by
            refine (h.isV j').resolve_left fun hn => ?_
            obtain ⟨rank, hr⟩ := h.forced
            have := (hr j' i' hn hj2 j hC).1
            rw [hq] at this; cases this
          obtain ⟨a, ha⟩ := hfin
          have ht := h.tight j' i' hj2 a ha j q hC hq
          obtain ⟨c1, hc1⟩ := h.finC j' i' hj2
          obtain ⟨c2, hc2⟩ := hC
          have b1 := hs.le i' j' c1 hc1
          have b2 := hs.le i' j c2 hc2
          rw [hc1, hc2] at ht
          simp only [val_fin] at ht
          have ha' : -((k + 1 : ℕ) * (2 * K) : ℚ) ≤ a := by
            push_cast; linarith
          have hsub : insert j'
              (Finset.univ.filter fun j => ∃ q, s.v j = XR.fin q ∧ -(k * (2 * K) : ℚ) ≤ q) ⊆
              (Finset.univ.filter fun j => ∃ q, s.v j = XR.fin q ∧
                -((k + 1 : ℕ) * (2 * K) : ℚ) ≤ q) := by
            intro x hx
            rcases Finset.mem_insert.1 hx with rfl | hx
            · exact Finset.mem_filter.2 ⟨Finset.mem_univ _, a, ha, ha'⟩
            · obtain ⟨_, b, hb1, hb2⟩ := Finset.mem_filter.1 hx
              exact Finset.mem_filter.2 ⟨Finset.mem_univ _, b, hb1, hmono.trans hb2⟩
          have hcard := Finset.card_le_card hsub
          rw [Finset.card_insert_of_notMem (by
            intro hmem
            exact hj1' (Finset.mem_filter.1 hmem).2)] at hcard
          omega
  rcases key (m + 1) with ⟨j, q, h1, h2, h3⟩ | hcard
  · exact ⟨j, q, h1, h2, by push_cast at h3; exact h3⟩
  · exfalso
    have := Finset.card_le_univ
      (Finset.univ.filter fun j => ∃ q, s.v j = XR.fin q ∧ -((m + 1 : ℕ) * (2 * K) : ℚ) ≤ q)
    rw [Fintype.card_fin] at this
    omega

/-! ## The potential -/

/-- Potential of one price. -/
def phi (D B : Nat) : XR → Nat
  | XR.fin q => (⌊(q + B) * D⌋ + 1).toNat
  | _ => 0

/-- Potential of all prices. -/
def Phi (D B : Nat) (v : Fin m → XR) : Nat := ∑ j, phi D B (v j)

theorem phi_lt {D B : Nat} {q : ℚ} {x : XR} (hD : 0 < D) (hq : ∃ z : ℤ, q * D = z)
    (hB : -(B : ℚ) ≤ q)
    (hx : x = ninf ∨ ∃ q' : ℚ, x = XR.fin q' ∧ q' < q ∧ ∃ z : ℤ, q' * D = z) :
    phi D B x < phi D B (XR.fin q) := by
  have hDq : (0:ℚ) < D := by exact_mod_cast hD
  have h1 : 0 ≤ ⌊(q + B) * D⌋ := by
    apply Int.floor_nonneg.2
    apply mul_nonneg _ hDq.le
    linarith
  rcases hx with rfl | ⟨q', rfl, hlt, z', hz'⟩
  · simp only [phi]; omega
  · obtain ⟨z, hz⟩ := hq
    have e1 : ⌊(q + B) * D⌋ = z + B * D := by
      have : (q + B) * D = ((z + B * D : ℤ) : ℚ) := by push_cast; rw [add_mul, hz]
      rw [this, Int.floor_intCast]
    have e2 : ⌊(q' + B) * D⌋ = z' + B * D := by
      have : (q' + B) * D = ((z' + B * D : ℤ) : ℚ) := by push_cast; rw [add_mul, hz']
      rw [this, Int.floor_intCast]
    have hzz : z' < z := by
      have : (z' : ℚ) < z := by rw [← hz, ← hz']; exact mul_lt_mul_of_pos_right hlt hDq
      exact_mod_cast this
    simp only [phi]
    rw [e1] at h1
    rw [e1, e2]
    omega

theorem Phi_update_lt {D B : Nat} {v : Fin m → XR} {j : Fin m} {x : XR}
    (h : phi D B x < phi D B (v j)) : Phi D B (Function.update v j x) < Phi D B v := by
  unfold Phi
  apply Finset.sum_lt_sum
  · intro k _
    by_cases hk : k = j
    · subst hk; rw [Function.update_self]; exact h.le
    · rw [Function.update_of_ne hk]
  · exact ⟨j, Finset.mem_univ _, by rw [Function.update_self]; exact h⟩

/-! ## One step -/

/-- What one step of the row reduction achieves. -/
structure StepOk (C : Cost n m) (D B : Nat) (i : Fin n) (s s' : St n m) (dis : Displaced n) :
    Prop where
  inv : Inv C s'
  grid : Grid D s'.v
  asg : ∀ i', Asg s' i' ↔ i' = i ∨ (Asg s i' ∧ dis ≠ .again i' ∧ dis ≠ .later i')
  was : ∀ i', dis = .again i' ∨ dis = .later i' → Asg s i'
  le : Phi D B s'.v ≤ Phi D B s.v
  lt : ∀ i', dis = .again i' → Phi D B s'.v < Phi D B s.v

theorem update_self_fun {α β : Type*} [DecidableEq α] (f : α → β) (a : α) :
    Function.update f a (f a) = f := Function.update_eq_self a f

theorem arrStep_spec {fu : FindUmins m} (hfu : FuOk fu) {C : Cost n m} (hC : CostOk C) {D K B : Nat} (hs : Scale C D K)
    (hB : (m + 2) * (2 * K) ≤ B)
    {τ : Fin n → Fin m} (hτ : Feasible C τ) {s : St n m} (h : Inv C s) (hg : Grid D s.v)
    (i : Fin n) (hi : ¬ Asg s i) :
    ∃ s' dis, arrStep fu C i s = some (s', dis) ∧ StepOk C D B i s s' dis := by
  obtain ⟨jh, qh, hCh, hvh, hqh⟩ := high_column h hs hτ i hi
  obtain ⟨umin, usub, j1, j2, hf, hu⟩ := hfu (C i) s.v (hC i) h.isV
    ⟨jh, (sub_isFin_iff (hC i jh) (h.isV jh)).2 ⟨hCh, ⟨_, hvh⟩⟩⟩
  have hmin : umin = (C i j1).sub (s.v j1) := hu.min
  -- the minimum is finite
  have hfinmin : IsFin umin := by
    have := hu.le jh (List.mem_finRange _)
    simp only at this
    rw [hvh, hCh.eq, sub_fin_fin] at this
    obtain ⟨a, ha, _⟩ := this _ rfl
    exact ⟨a, ha⟩
  have hCV := (sub_isFin_iff (hC i j1) (h.isV j1)).1 (hmin ▸ hfinmin)
  obtain ⟨c, hc⟩ := hCV.1
  obtain ⟨q, hq⟩ := hCV.2
  have hminv : umin = XR.fin (c - q) := by rw [hmin, hc, hq]; rfl
  -- the price of the chosen column is high
  have hqB : -(B : ℚ) ≤ q := by
    have := hu.le jh (List.mem_finRange _)
    simp only at this
    obtain ⟨c2, hc2⟩ := hCh
    rw [hvh, hc2, sub_fin_fin, hminv] at this
    obtain ⟨a, ha, hle⟩ := this _ rfl
    injection ha with ha
    have b1 := hs.le i j1 c hc
    have b2 := hs.le i jh c2 hc2
    have hB' : ((m + 2) * (2 * K) : ℚ) ≤ B := by exact_mod_cast hB
    rw [← ha] at hle
    linarith
  have hmemD : ∀ j : Fin m, j ∈ List.finRange m := List.mem_finRange
  -- characterisation of assigned rows
  have hasgen : ∀ (j : Fin m) (x : Fin m → XR) (i' : Fin n),
      Asg ⟨Function.update s.rowsol i (some j), Function.update s.colsol j (some i), x⟩ i' ↔
        i' = i ∨ (Asg s i' ∧ s.colsol j ≠ some i') := fun j x i' => asg_assign h i hi j x i'
  have hCfin1 : IsFin (C i j1) := ⟨c, hc⟩
  unfold arrStep
  rw [hf]
  simp only
  by_cases hlow : ((s.v j1).sub (usub.sub umin)).lt (s.v j1) = true
  · -- the price is lowered
    rw [if_pos hlow]
    -- new price
    have hnew : ((s.v j1).sub (usub.sub umin) = XR.ninf ∧
        ∀ j', j' ≠ j1 → IsFin (C i j') → s.v j' = XR.ninf) ∨
        (∃ q', (s.v j1).sub (usub.sub umin) = XR.fin q' ∧ q' < q ∧ (∃ z : ℤ, q' * D = z) ∧
          ∀ j' b, j' ≠ j1 → IsFin (C i j') → s.v j' = XR.fin b →
            (C i j1).val - q' ≤ (C i j').val - b) := by
      rcases hu.subC (fun j => sub_isC (hC i j) (h.isV j)) with e | ⟨b, e⟩
      · simp only at e
        left
        rw [hq, e, hminv]
        refine ⟨rfl, ?_⟩
        intro j' hne hCf
        refine (h.isV j').resolve_right ?_
        rintro ⟨p, hp⟩
        have := hu.le2 j' (hmemD j') hne
        simp only at this
        rw [e, hp, hCf.eq, sub_fin_fin] at this
        obtain ⟨a, ha, _⟩ := this _ rfl
        cases ha
      · simp only at e
        right
        rw [hq, e, hminv]
        refine ⟨q - (b - (c - q)), rfl, ?_, ?_, ?_⟩
        · rw [hq, e, hminv] at hlow
          simp only [sub_fin_fin, lt_fin_fin, decide_eq_true_eq] at hlow
          exact hlow
        · rcases hu.sub with ⟨_, e2⟩ | ⟨k, _, _, _, e2⟩
          · simp only at e2; rw [e] at e2; cases e2
          · simp only at e2
            rw [e] at e2
            have hk := (sub_isFin_iff (hC i k) (h.isV k)).1 (e2 ▸ isFin_fin b)
            obtain ⟨c3, hc3⟩ := hk.1
            obtain ⟨q3, hq3⟩ := hk.2
            rw [hc3, hq3, sub_fin_fin] at e2
            injection e2 with e2
            obtain ⟨z1, hz1⟩ := hs.int i j1 c hc
            obtain ⟨z2, hz2⟩ := hs.int i k c3 hc3
            obtain ⟨z3, hz3⟩ := hg k q3 hq3
            refine ⟨z1 - z2 + z3, ?_⟩
            push_cast
            rw [← hz1, ← hz2, ← hz3, e2]
            ring
        · intro j' b' hne hCf hb'
          have := hu.le2 j' (hmemD j') hne
          simp only at this
          rw [e, hb', hCf.eq, sub_fin_fin] at this
          obtain ⟨a, ha, hle⟩ := this _ rfl
          injection ha with ha
          rw [hc]
          simp only [val_fin]
          rw [← ha] at hle
          linarith
    have hphi : phi D B ((s.v j1).sub (usub.sub umin)) < phi D B (s.v j1) := by
      rw [hq]
      refine phi_lt hs.pos (hg j1 q hq) hqB ?_
      rw [← hq]
      rcases hnew with ⟨e, _⟩ | ⟨q', e, hlt, hz, _⟩
      · exact Or.inl e
      · exact Or.inr ⟨q', e, hlt, hz⟩
    refine ⟨_, _, rfl, ?_, ?_, ?_, ?_, ?_, ?_⟩
    · refine h.assign i hi j1 hCfin1 q hq _ ?_
      rcases hnew with ⟨e, h3⟩ | ⟨q', e, hlt, _, h3⟩
      · exact Or.inr ⟨e, h3⟩
      · exact Or.inl ⟨q', e, hlt.le, h3⟩
    · intro j b hb
      simp only at hb
      by_cases hj : j = j1
      · subst hj
        rw [Function.update_self] at hb
        rcases hnew with ⟨e, _⟩ | ⟨q', e, _, hz, _⟩
        · rw [e] at hb; cases hb
        · rw [e] at hb; injection hb with hb; rw [← hb]; exact hz
      · rw [Function.update_of_ne hj] at hb
        exact hg j b hb
    · intro i'
      rw [hasgen]
      cases hcs : s.colsol j1 with
      | none => simp
      | some i0 => simp
    · intro i' hd
      cases hcs : s.colsol j1 with
      | none => rw [hcs] at hd; simp at hd
      | some i0 => rw [hcs] at hd; simp at hd; subst hd; exact ⟨j1, hcs⟩
    · exact (Phi_update_lt hphi).le
    · intro i' _
      exact Phi_update_lt hphi
  · -- minimum and subminimum are equal
    rw [if_neg hlow]
    have hsub : usub = XR.fin (c - q) := by
      rcases hu.subC (fun j => sub_isC (hC i j) (h.isV j)) with e | ⟨b, e⟩
      · simp only at e
        rw [hq, e, hminv] at hlow
        exact absurd rfl hlow
      · simp only at e
        rw [hq, e, hminv] at hlow
        simp only [sub_fin_fin, lt_fin_fin, decide_eq_true_eq] at hlow
        have := hu.le_sub
        simp only at this
        rw [e, hminv] at this
        obtain ⟨a, ha, hle⟩ := this _ rfl
        injection ha with ha
        rw [e]
        congr 1
        rw [← ha] at hle
        linarith
    -- any column with the minimal reduced cost can be assigned
    have htight : ∀ (k : Fin m) (c' q' : ℚ), C i k = XR.fin c' → s.v k = XR.fin q' →
        c' - q' = c - q → ∀ j' b, j' ≠ k → IsFin (C i j') → s.v j' = XR.fin b →
        (C i k).val - q' ≤ (C i j').val - b := by
      intro k c' q' hc' hq' he j' b _ hCf hb
      have := hu.le j' (hmemD j')
      simp only at this
      rw [hb, hCf.eq, sub_fin_fin, hminv] at this
      obtain ⟨a, ha, hle⟩ := this _ rfl
      injection ha with ha
      rw [hc']
      simp only [val_fin]
      rw [← ha] at hle
      linarith
    have hinv : ∀ (k : Fin m) (c' q' : ℚ), C i k = XR.fin c' → s.v k = XR.fin q' →
        c' - q' = c - q → Inv C ⟨Function.update s.rowsol i (some k),
          Function.update s.colsol k (some i), s.v⟩ := by
      intro k c' q' hc' hq' he
      have := h.assign i hi k ⟨c', hc'⟩ q' hq' (XR.fin q')
        (Or.inl ⟨q', rfl, le_refl _, htight k c' q' hc' hq' he⟩)
      rw [← hq', update_self_fun] at this
      exact this
    cases hcs : s.colsol j1 with
    | none =>
      refine ⟨_, _, rfl, hinv j1 c q hc hq rfl, hg, ?_, ?_, le_refl _, ?_⟩
      · intro i'
        rw [hasgen, hcs]
        simp
      · intro i' hd; simp at hd
      · intro i' hd; simp at hd
    | some i1 =>
      rcases hu.sub with ⟨_, e2⟩ | ⟨k, _, hkne, ej2, e2⟩
      · simp only at e2; rw [hsub] at e2; cases e2
      · simp only at ej2 e2
        subst ej2
        rw [hsub] at e2
        have hk := (sub_isFin_iff (hC i k) (h.isV k)).1 (e2 ▸ isFin_fin _)
        obtain ⟨c3, hc3⟩ := hk.1
        obtain ⟨q3, hq3⟩ := hk.2
        rw [hc3, hq3, sub_fin_fin] at e2
        injection e2 with e2
        refine ⟨_, _, rfl, hinv k c3 q3 hc3 hq3 e2.symm, hg, ?_, ?_, le_refl _, ?_⟩
        · intro i'
          rw [hasgen]
          cases hcs2 : s.colsol k with
          | none => simp
          | some i0 => simp
        · intro i' hd
          cases hcs2 : s.colsol k with
          | none => rw [hcs2] at hd; simp at hd
          | some i0 => rw [hcs2] at hd; simp at hd; subst hd; exact ⟨k, hcs2⟩
        · intro i' hd
          cases hcs2 : s.colsol k with
          | none => rw [hcs2] at hd; simp at hd
          | some i0 => rw [hcs2] at hd; simp at hd

/-! ## The loop -/

/-- The rows still to be looked at: those of this pass followed by those kept for later. -/
def pending (pnf k numfree : Nat) (free : List (Fin n)) : List (Fin n) :=
  (free.take pnf).drop k ++ free.take numfree

/-- The pending rows are exactly the unassigned ones. -/
structure FreeOk (s : St n m) (pnf k numfree : Nat) (free : List (Fin n)) : Prop where
  len : free.length = n
  nk : numfree ≤ k
  kp : k ≤ pnf
  pn : pnf ≤ n
  nd : (pending pnf k numfree free).Nodup
  mem : ∀ i, i ∈ pending pnf k numfree free ↔ ¬ Asg s i

theorem pending_cons {pnf k numfree : Nat} {free : List (Fin n)} {i : Fin n} (hk : k < pnf)
    (hi : free[k]? = some i) :
    pending pnf k numfree free = i :: pending pnf (k + 1) numfree free := by
  unfold pending
  obtain ⟨hlt, rfl⟩ := List.getElem?_eq_some_iff.1 hi
  have hlt' : k < (free.take pnf).length := by rw [List.length_take]; omega
  rw [List.drop_eq_getElem_cons hlt']
  simp

theorem pending_set {pnf k numfree : Nat} {free : List (Fin n)} {i0 : Fin n} (hk : k < pnf)
    (hl : k < free.length) (hn : numfree ≤ k) :
    pending pnf k numfree (free.set k i0) = i0 :: pending pnf (k + 1) numfree free := by
  have h1 : (free.set k i0)[k]? = some i0 := by simp [hl]
  rw [pending_cons hk h1]
  congr 1
  unfold pending
  congr 1
  · rw [List.take_set, List.drop_set_of_lt (by omega)]
  · rw [List.take_set, List.set_eq_of_length_le (by rw [List.length_take]; omega)]

theorem pending_later {pnf k numfree : Nat} {free : List (Fin n)} {i0 : Fin n}
    (hl : numfree < free.length) (hn : numfree < k) :
    pending pnf k (numfree + 1) (free.set numfree i0) = pending pnf k numfree free ++ [i0] := by
  unfold pending
  rw [List.append_assoc]
  congr 1
  · rw [List.take_set, List.drop_set_of_lt hn]
  · rw [List.take_add_one]
    congr 1
    · rw [List.take_set, List.set_eq_of_length_le (by rw [List.length_take]; omega)]
    · simp [hl]

theorem arrLoop_spec {fu : FindUmins m} (hfu : FuOk fu) {C : Cost n m} (hC : CostOk C) {D K B : Nat} (hs : Scale C D K)
    (hB : (m + 2) * (2 * K) ≤ B) {τ : Fin n → Fin m} (hτ : Feasible C τ) (pnf : Nat) :
    ∀ (M : Nat) (k numfree : Nat) (free : List (Fin n)) (s : St n m),
      Phi D B s.v + (pnf - k) = M → Inv C s → Grid D s.v → FreeOk s pnf k numfree free →
      ∃ (s' : St n m) (free' : List (Fin n)) (nf' : Nat),
        (∀ f, M < f → arrLoop fu C pnf f k numfree free s = some (s', free', nf')) ∧
        Inv C s' ∧ Grid D s'.v ∧ FreeOk s' nf' 0 0 free' := by
  intro M
  induction M using Nat.strong_induction_on with
  | _ M ih =>
    intro k numfree free s hM h hg hf
    by_cases hk : k < pnf
    · have hkl : k < free.length := by rw [hf.len]; exact Nat.lt_of_lt_of_le hk hf.pn
      obtain ⟨i, hi⟩ : ∃ i, free[k]? = some i := ⟨free[k], List.getElem?_eq_getElem hkl⟩
      have hcons := pending_cons (numfree := numfree) hk hi
      have hnd := hf.nd
      rw [hcons, List.nodup_cons] at hnd
      have hmem := hf.mem
      rw [hcons] at hmem
      have hiu : ¬ Asg s i := (hmem i).1 (by simp)
      obtain ⟨s', dis, hstep, hok⟩ := arrStep_spec hfu hC hs hB hτ h hg i hiu
      have hrest : ∀ i', i' ∈ pending pnf (k + 1) numfree free ↔ (¬ Asg s i' ∧ i' ≠ i) := by
        intro i'
        have := hmem i'
        rw [List.mem_cons] at this
        constructor
        · intro hm'
          exact ⟨this.1 (Or.inr hm'), fun e => hnd.1 (e ▸ hm')⟩
        · rintro ⟨h1, h2⟩
          exact (this.2 h1).resolve_left h2
      have hle := hok.le
      cases dis with
      | nothing =>
        have hf' : FreeOk s' pnf (k + 1) numfree free :=
          ⟨hf.len, by have := hf.nk; omega, by omega, hf.pn, hnd.2, by
            intro i'
            rw [hrest, hok.asg]
            simp [and_comm]⟩
        obtain ⟨t, fr, nf, hrun, hres⟩ := ih (Phi D B s'.v + (pnf - (k + 1))) (by omega)
          (k + 1) numfree free s' rfl hok.inv hok.grid hf'
        refine ⟨t, fr, nf, ?_, hres⟩
        intro f hMf
        obtain ⟨f', rfl⟩ : ∃ f', f = f' + 1 := ⟨f - 1, by omega⟩
        simp only [arrLoop, if_pos hk, hi, hstep]
        exact hrun f' (by omega)
      | again i0 =>
        have hlt := hok.lt i0 rfl
        have hi0 : Asg s i0 := hok.was i0 (Or.inl rfl)
        have hf' : FreeOk s' pnf k numfree (free.set k i0) := by
          refine ⟨by rw [List.length_set]; exact hf.len, hf.nk, hf.kp, hf.pn, ?_, ?_⟩
          · rw [pending_set hk hkl hf.nk, List.nodup_cons]
            exact ⟨fun hm' => ((hrest i0).1 hm').1 hi0, hnd.2⟩
          · intro i'
            rw [pending_set hk hkl hf.nk, List.mem_cons, hrest, hok.asg]
            have hne : i0 ≠ i := fun e => hiu (e ▸ hi0)
            constructor
            · rintro (rfl | ⟨h1, h2⟩)
              · simp [hne]
              · simp [h1, h2]
            · intro h1
              by_cases e : i' = i0
              · exact Or.inl e
              · right
                refine ⟨fun ha => h1 (Or.inr ⟨ha, ?_, by simp⟩), fun e' => h1 (Or.inl e')⟩
                intro e'; injection e' with e'; exact e e'.symm
        obtain ⟨t, fr, nf, hrun, hres⟩ := ih (Phi D B s'.v + (pnf - k)) (by omega)
          k numfree (free.set k i0) s' rfl hok.inv hok.grid hf'
        refine ⟨t, fr, nf, ?_, hres⟩
        intro f hMf
        obtain ⟨f', rfl⟩ : ∃ f', f = f' + 1 := ⟨f - 1, by omega⟩
        simp only [arrLoop, if_pos hk, hi, hstep]
        exact hrun f' (by omega)
      | later i0 =>
        have hi0 : Asg s i0 := hok.was i0 (Or.inr rfl)
        have hnl : numfree < free.length := by have := hf.nk; omega
        have hnk : numfree < k + 1 := by have := hf.nk; omega
        have hf' : FreeOk s' pnf (k + 1) (numfree + 1) (free.set numfree i0) := by
          refine ⟨by rw [List.length_set]; exact hf.len, by omega, by omega, hf.pn, ?_, ?_⟩
          · rw [pending_later hnl hnk]
            refine List.Nodup.append hnd.2 (by simp) ?_
            intro x hx hx'
            rw [List.mem_singleton.1 hx'] at hx
            exact ((hrest i0).1 hx).1 hi0
          · intro i'
            rw [pending_later hnl hnk, List.mem_append, List.mem_singleton, hrest, hok.asg]
            have hne : i0 ≠ i := fun e => hiu (e ▸ hi0)
            constructor
            · rintro (⟨h1, h2⟩ | rfl)
              · simp [h1, h2]
              · simp [hne]
            · intro h1
              by_cases e : i' = i0
              · exact Or.inr e
              · left
                refine ⟨fun ha => h1 (Or.inr ⟨ha, by simp, ?_⟩), fun e' => h1 (Or.inl e')⟩
                intro e'; injection e' with e'; exact e e'.symm
        obtain ⟨t, fr, nf, hrun, hres⟩ := ih (Phi D B s'.v + (pnf - (k + 1))) (by omega)
          (k + 1) (numfree + 1) (free.set numfree i0) s' rfl hok.inv hok.grid hf'
        refine ⟨t, fr, nf, ?_, hres⟩
        intro f hMf
        obtain ⟨f', rfl⟩ : ∃ f', f = f' + 1 := ⟨f - 1, by omega⟩
        simp only [arrLoop, if_pos hk, hi, hstep, if_pos hnl]
        exact hrun f' (by omega)
    · have hkp : k = pnf := Nat.le_antisymm hf.kp (by omega)
      have hpend : pending pnf k numfree free = pending numfree 0 0 free := by
        unfold pending
        rw [hkp, List.drop_eq_nil_of_le (by rw [List.length_take]; omega)]
        simp
      refine ⟨s, free, numfree, ?_, h, hg, hf.len, Nat.le_refl 0, Nat.zero_le _, ?_, ?_, ?_⟩
      · intro f hMf
        obtain ⟨f', rfl⟩ : ∃ f', f = f' + 1 := ⟨f - 1, by omega⟩
        simp only [arrLoop, if_neg hk]
      · have := hf.nk; have := hf.pn; omega
      · rw [← hpend]; exact hf.nd
      · rw [← hpend]; exact hf.mem

end Verif.Lap
