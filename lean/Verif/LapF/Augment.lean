import Verif.LapF.Dijkstra
import Verif.Lap.Augment

/-! # One augmentation in rounded arithmetic -/

namespace Verif.LapF

open Verif.Lap Verif.Lap.XR

variable {n m : Nat}

theorem updatePrices_spec (A : Arith) (d : Fin m → XR) (mn : XR) (js : List (Fin m)) :
    ∀ (v : Fin m → XR), js.Nodup → ∀ j,
      updatePrices A d mn js v j = if j ∈ js then A.sub (A.add (v j) (d j)) mn else v j := by
  induction js with
  | nil => intro v _ j; simp [updatePrices]
  | cons k ks ih =>
    intro v hnd j
    rw [List.nodup_cons] at hnd
    have : updatePrices A d mn (k :: ks) v =
        updatePrices A d mn ks (Function.update v k (A.sub (A.add (v k) (d k)) mn)) := rfl
    rw [this, ih _ hnd.2 j]
    by_cases hj : j = k
    · subst hj
      simp [hnd.1]
    · rw [Function.update_of_ne hj]
      simp [hj]

/-- An augmentation assigns the free row; the slack grows from `ε` to `(n + 3) (ε + 4 δ)`. -/
theorem augment_spec {A : Arith} {C : Cost n m} {D : Nat} {R K δ S ε E : ℚ}
    (hE : Env A C D R K δ S) {s : St n m} (h : MInv C D S ε s) (hE0 : E = ε + 4 * δ)
    (hε : 0 ≤ ε)
    {τ : Fin n → Fin m} (hτ : Feasible C τ) {f : Fin n} (hf : ¬ Asg s f) :
    ∃ s', (∀ fuel, m < fuel → augment A C fuel f s = some s') ∧ MInv C D S ((n + 3) * E) s' ∧
      ∀ i, Asg s' i ↔ i = f ∨ Asg s i := by
  have hδ := hE.rounds.nn
  have hEn : 0 ≤ E := by linarith
  obtain ⟨g1, g2⟩ := hE.ranges
  have hS := hE.S_nonneg
  have hSe := hE.hS
  have hK := hE.scaled.nn
  obtain ⟨t, e, μ, hrun, hp⟩ := dijkstra_spec hE h hE0 hε hτ hf m _ 0 rfl
    (dInv_init (E := E) hE h f)
  have hl1 := hp.l1
  -- the column found is not scanned
  have hepos : ∀ p : Nat, t.L[p]? = some e → t.low ≤ p := by
    intro p hpe
    by_contra hc
    obtain ⟨i, hi⟩ := hp.asg p e hpe (by omega)
    rw [hp.free] at hi; cases hi
  have hlowm : t.low < m := by
    obtain ⟨p, hpe⟩ := mem_of_perm hp.nd hp.len e
    have h1 := hepos p hpe
    have h2 : p < t.L.length := (List.getElem?_eq_some_iff.1 hpe).1
    rw [hp.len] at h2
    omega
  obtain ⟨rowsol', colsol', hflip, hrows, hasg, hch⟩ := flip_spec (colsol0 := s.colsol)
    (pred := t.pred) (f := f) (L := t.L) hp.nd (low := t.low) (e0 := e)
    (fun j hj => hf ⟨j, hj⟩)
    (by
      intro p j hpj hpl
      obtain ⟨x, hx⟩ : ∃ x, t.d j = fin x := by
        by_cases h1 : p < t.last1
        · obtain ⟨x, hx, _⟩ := hp.ready p j hpj h1
          exact ⟨x, hx⟩
        · exact ⟨μ, hp.cur p j hpj (by omega) hpl⟩
      rcases (hp.pred p j x hpj hpl hx).2 with ⟨h1, _⟩ | ⟨p', j1, x1, h1, h2, h3, _⟩
      · exact Or.inl h1
      · exact Or.inr ⟨p', j1, h1, h2, h3⟩)
    t.low s.rowsol s.colsol e (le_refl _)
    (by
      rcases hp.epred.2 with ⟨h1, _⟩ | ⟨p', j1, x1, h1, h2, h3, _⟩
      · exact Or.inl h1
      · exact Or.inr ⟨p', j1, h1, h2, h3⟩)
    hepos (Or.inl rfl) (fun j i _ hj => h.rows j i hj)
    (by
      intro i
      constructor
      · rintro ⟨j, _, hj⟩; exact ⟨j, hj⟩
      · rintro ⟨j, hj⟩
        refine ⟨j, ?_, hj⟩
        rintro rfl
        rw [hp.free] at hj; cases hj)
    (fun _ _ _ _ => rfl) (fun _ => Or.inl rfl)
  have hndt : (t.L.take t.last1).Nodup := hp.nd.sublist (List.take_sublist _ _)
  -- bounds on the distances
  have hdist : ∀ (p : Nat) j x q, t.L[p]? = some j → p < t.low → t.d j = fin x → s.v j = fin q →
      |x + q| ≤ 2 * ((m : ℚ) * S) + S := by
    intro p j x q hpj hpl hx hq
    have hb := reached_bound hE hp.pred p (by omega) _ _ _ (hp.pred p j x hpj hpl hx)
    rw [hq, val_fin] at hb
    have hle : (p : ℚ) * S ≤ m * S :=
      mul_le_mul_of_nonneg_right (by exact_mod_cast (by omega : p ≤ m)) hS
    have e1 : (2 * (p : ℚ) + 1) * S = 2 * (p * S) + S := by ring
    linarith
  have hμB : |μ| ≤ 2 * ((m : ℚ) * S) + S := by
    have hb := reached_bound hE hp.pred t.low (le_refl _) _ _ _ hp.epred
    rw [h.free e hp.free, val_fin, add_zero] at hb
    have hle : (t.low : ℚ) * S ≤ m * S :=
      mul_le_mul_of_nonneg_right (by exact_mod_cast (by omega : t.low ≤ m)) hS
    have e1 : (2 * (t.low : ℚ) + 1) * S = 2 * (t.low * S) + S := by ring
    linarith
  have hl1E : ((t.last1 : ℚ) + 1) * E ≤ n * E :=
    mul_le_mul_of_nonneg_right (by exact_mod_cast hp.l1n) hEn
  have hl1E0 : (0:ℚ) ≤ t.last1 * E := by positivity
  have hexp : ((n : ℚ) + 3) * E = n * E + 3 * E := by ring
  have hV : (4 * (m : ℚ) + 4) * S = 4 * ((m : ℚ) * S) + 4 * S := by ring
  -- the distance, or the minimum for the columns that keep their price
  obtain ⟨X, hX1, hX2⟩ : ∃ X : Fin m → ℚ,
      (∀ (p : Nat) j x, t.L[p]? = some j → p < t.low → t.d j = fin x → X j = x) ∧
      (∀ (p : Nat) j, t.L[p]? = some j → t.last1 ≤ p → X j = μ) := by
    classical
    refine ⟨fun j => if j ∈ t.L.take t.last1 then (t.d j).val else μ, ?_, ?_⟩
    · intro p j x hpj hpl hx
      simp only
      by_cases h1 : p < t.last1
      · rw [if_pos (mem_take_iff.2 ⟨p, hpj, h1⟩), hx, val_fin]
      · have h2 := hp.cur p j hpj (by omega) hpl
        rw [hx] at h2
        injection h2 with h2
        rw [if_neg]
        · exact h2.symm
        · intro hmem
          obtain ⟨p2, hp2, hlt⟩ := mem_take_iff.1 hmem
          have := pos_inj hp.nd hpj hp2
          omega
    · intro p j hpj h1
      simp only
      rw [if_neg]
      intro hmem
      obtain ⟨p2, hp2, hlt⟩ := mem_take_iff.1 hmem
      have := pos_inj hp.nd hpj hp2
      omega
  have hXe : X e = μ := by
    obtain ⟨p, hpe⟩ := mem_of_perm hp.nd hp.len e
    exact hX2 p e hpe (by have := hepos p hpe; omega)
  have hXub : ∀ j, X j ≤ μ + t.last1 * E := by
    intro j
    obtain ⟨p, hpj⟩ := mem_of_perm hp.nd hp.len j
    by_cases h1 : p < t.last1
    · obtain ⟨x, hx, hle⟩ := hp.ready p j hpj h1
      rw [hX1 p j x hpj (by omega) hx]; exact hle
    · rw [hX2 p j hpj (by omega)]; linarith
  have hXd : ∀ j y, t.d j = fin y → X j ≤ y + E := by
    intro j y hy
    obtain ⟨p, hpj⟩ := mem_of_perm hp.nd hp.len j
    by_cases h1 : p < t.last1
    · rw [hX1 p j y hpj (by omega) hy]; linarith
    · rw [hX2 p j hpj (by omega)]
      have := hp.rest p j y hpj (by omega) hy
      linarith
  have hA : ∀ {j1 i j'}, s.colsol j1 = some i → IsFin (s.v j1) → FinAt C s.v i j' →
      redv C s.v i j1 - X j1 ≤ redv C s.v i j' - X j' + n * E + E := by
    intro j1 i j' hc hv1 hat
    obtain ⟨p, hpj⟩ := mem_of_perm hp.nd hp.len j1
    by_cases hpl : p < t.last1
    · obtain ⟨x, hx, _⟩ := hp.ready p j1 hpj hpl
      rw [hX1 p j1 x hpj (by omega) hx]
      obtain ⟨y, hy, hle⟩ := hp.relaxed p j1 i hpj hpl hc j' hat
      have h1 := hle x hx
      have h2 := hXd j' y hy
      linarith
    · rw [hX2 p j1 hpj (by omega)]
      have h1 := h.tight j1 i hc hv1 j' hat
      have h2 := hXub j'
      linarith
  have hB : ∀ {j'}, FinAt C s.v f j' → X j' ≤ redv C s.v f j' + δ + E := by
    intro j' hat
    obtain ⟨y, hy, hle⟩ := hp.init j' hat
    have := hXd j' y hy
    linarith
  -- new prices
  obtain ⟨v', hv'⟩ : ∃ v', v' = updatePrices A t.d t.mn (t.L.take t.last1) s.v := ⟨_, rfl⟩
  have hv'fin : ∀ j q, s.v j = fin q → ∃ b, v' j = fin b ∧ |b - (q + X j - μ)| ≤ 2 * δ ∧
      OnGrid D b ∧ |b| ≤ (4 * m + 4) * S ∧ (b = q ∨ ∃ i, s.colsol j = some i) := by
    intro j q hq
    rw [hv', updatePrices_spec _ _ _ _ _ hndt]
    obtain ⟨p, hpj⟩ := mem_of_perm hp.nd hp.len j
    have hprj := h.prices j q hq
    by_cases hpl : p < t.last1
    · rw [if_pos (mem_take_iff.2 ⟨p, hpj, hpl⟩)]
      obtain ⟨x, hx, _⟩ := hp.ready p j hpj hpl
      have hb := abs_le.1 (hdist p j x q hpj (by omega) hx hq)
      have hq' := abs_le.1 hprj.2
      have hμ' := abs_le.1 hμB
      rw [hV] at hq'
      obtain ⟨a, ha, hae, haG⟩ := hE.rounds.add q x hprj.1 (hp.dG j x hx)
        (by rw [abs_le]; constructor <;> linarith) (by rw [abs_le]; constructor <;> linarith)
      rw [abs_le] at hae
      obtain ⟨b, hb', hbe, hbG⟩ := hE.rounds.sub a μ haG hp.mnG
        (by rw [abs_le]; constructor <;> linarith) (by rw [abs_le]; constructor <;> linarith)
      rw [abs_le] at hbe
      refine ⟨b, ?_, ?_, hbG, ?_, Or.inr (hp.asg p j hpj (by omega))⟩
      · rw [hq, hx, hp.mn, Arith.add_fin_fin, ha, Arith.sub_fin_fin, hb']
      · rw [hX1 p j x hpj (by omega) hx, abs_le]
        constructor <;> linarith
      · rw [hV, abs_le]
        constructor <;> linarith
    · rw [if_neg]
      · refine ⟨q, hq, ?_, hprj.1, hprj.2, Or.inl rfl⟩
        rw [hX2 p j hpj (by omega)]
        have : q - (q + μ - μ) = 0 := by ring
        rw [this, abs_zero]
        linarith
      · intro hmem
        obtain ⟨p2, hp2, hlt⟩ := mem_take_iff.1 hmem
        have := pos_inj hp.nd hpj hp2
        omega
  have hv'ninf : ∀ j, s.v j = ninf → v' j = ninf := by
    intro j hq
    rw [hv', updatePrices_spec _ _ _ _ _ hndt, if_neg]
    · exact hq
    · intro hmem
      obtain ⟨p2, hp2, hlt⟩ := mem_take_iff.1 hmem
      obtain ⟨x, hx, _⟩ := hp.ready p2 j hp2 hlt
      obtain ⟨q, hq'⟩ := (hp.pred p2 j x hp2 (by omega) hx).1.2
      rw [hq] at hq'; cases hq'
  have hback : ∀ j b, v' j = fin b → ∃ q, s.v j = fin q ∧ |b - (q + X j - μ)| ≤ 2 * δ ∧
      OnGrid D b ∧ |b| ≤ (4 * m + 4) * S ∧ (b = q ∨ ∃ i, s.colsol j = some i) := by
    intro j b hb
    rcases h.isV j with hn | ⟨q, hq⟩
    · rw [hv'ninf j hn] at hb; cases hb
    · obtain ⟨b', h1, h2⟩ := hv'fin j q hq
      rw [hb] at h1
      injection h1 with h1
      subst h1
      exact ⟨q, hq, h2⟩
  have hbackn : ∀ j, v' j = ninf → s.v j = ninf := by
    intro j hb
    rcases h.isV j with hn | ⟨q, hq⟩
    · exact hn
    · obtain ⟨b', h1, _⟩ := hv'fin j q hq
      rw [hb] at h1; cases h1
  -- new assignments
  have hnew : ∀ j i, colsol' j = some i → s.colsol j = some i ∨
      ∃ q, Reached C s f δ t.d t.L q i j (X j) ∧ q ≤ t.low := by
    intro j i hj
    rcases hch j with h1 | ⟨h1, h2⟩
    · left; rw [← h1]; exact hj
    · right
      rw [h1] at hj
      have hij := (Option.some.inj hj).symm
      rcases h2 with rfl | ⟨p, hpj, hpl⟩
      · rw [hXe, hij]; exact ⟨t.low, hp.epred, le_refl _⟩
      · obtain ⟨x, hx⟩ : ∃ x, t.d j = fin x := by
          by_cases h1 : p < t.last1
          · obtain ⟨x, hx, _⟩ := hp.ready p j hpj h1
            exact ⟨x, hx⟩
          · exact ⟨μ, hp.cur p j hpj (by omega) hpl⟩
        rw [hX1 p j x hpj hpl hx, hij]
        exact ⟨p, hp.pred p j x hpj hpl hx, by omega⟩
  refine ⟨⟨rowsol', colsol', v'⟩, ?_, ⟨⟨hrows, ?_, ?_, ?_, ?_⟩, ?_, ?_, ?_⟩, ?_⟩
  · intro fuel hfu
    simp only [augment, hrun fuel hfu, hflip fuel (by omega), hv']
  · intro j i hj
    rcases hnew j i hj with h1 | ⟨q, h1, _⟩
    · exact h.finC j i h1
    · exact h1.1.1
  · intro j
    rcases h.isV j with hn | ⟨q, hq⟩
    · exact Or.inl (hv'ninf j hn)
    · obtain ⟨b, hb, _⟩ := hv'fin j q hq
      exact Or.inr ⟨b, hb⟩
  · intro j hj
    simp only at hj ⊢
    have hj0 : s.colsol j = none := by
      rcases hch j with h1 | ⟨h1, _⟩
      · rw [← h1]; exact hj
      · rw [hj] at h1; cases h1
    obtain ⟨b, hb, _, _, _, h1 | ⟨i, hi⟩⟩ := hv'fin j 0 (h.free j hj0)
    · rw [hb, h1]
    · rw [hj0] at hi; cases hi
  · obtain ⟨rank, hr⟩ := h.forced
    refine ⟨rank, ?_⟩
    intro j i hv hj j' hCf
    simp only at hv hj ⊢
    have hvj := hbackn j hv
    have hj0 : s.colsol j = some i := by
      rcases hnew j i hj with h1 | ⟨q, h1, _⟩
      · exact h1
      · obtain ⟨q', hq'⟩ := h1.1.2
        rw [hvj] at hq'; cases hq'
    obtain ⟨r1, r2⟩ := hr j i hvj hj0 j' hCf
    exact ⟨hv'ninf j' r1, r2⟩
  · intro j b hb
    obtain ⟨q, _, _, h1, h2, _⟩ := hback j b hb
    exact ⟨h1, h2⟩
  · intro j b hb
    obtain ⟨q, hq, h1, _⟩ := hback j b hb
    have h2 := h.ub j q hq
    have h3 := hXub j
    rw [abs_le] at h1
    linarith
  · intro j i hj hvj j' hat
    simp only at hj hvj hat
    obtain ⟨a, ha⟩ := hvj
    obtain ⟨q, hq, h1, _⟩ := hback j a ha
    obtain ⟨b, hb⟩ := hat.2
    obtain ⟨q', hq', h1', _⟩ := hback j' b hb
    have hat' : FinAt C s.v i j' := ⟨hat.1, q', hq'⟩
    rw [abs_le] at h1 h1'
    -- it is enough to compare the old reduced costs, corrected by the distances
    have key : redv C s.v i j - X j ≤ redv C s.v i j' - X j' + (n * E + E + 4 * δ) := by
      rcases hnew j i hj with h2 | ⟨qq, h2, hqq⟩
      · have := hA h2 ⟨q, hq⟩ hat'
        linarith
      · obtain ⟨_, h3⟩ := h2
        rcases h3 with ⟨rfl, h4⟩ | ⟨p', j1, x1, h4, h5, h6, h7, h8, h9⟩
        · have h5 := hB hat'
          rw [abs_le] at h4
          have : (0:ℚ) ≤ n * E := by positivity
          linarith
        · have h10 := hA h6 h8.2 hat'
          rw [hX1 p' j1 x1 h4 (by omega) h7] at h10
          rw [abs_le] at h9
          linarith
    simp only [redv, ha, hb, hq, hq', val_fin] at key ⊢
    linarith
  · exact hasg

theorem augmentAll_spec {A : Arith} {C : Cost n m} {D : Nat} {R K δ S : ℚ}
    (hE : Env A C D R K δ S) {τ : Fin n → Fin m}
    (hτ : Feasible C τ) : ∀ (fs : List (Fin n)) (s : St n m) (ε : ℚ), 0 ≤ ε → MInv C D S ε s →
      fs.Nodup → (∀ f ∈ fs, ¬ Asg s f) →
      ∃ s' ε', (∀ fuel, m < fuel → augmentAll A C fuel fs s = some s') ∧ 0 ≤ ε' ∧
        ε' + 4 * δ ≤ (n + 4) ^ fs.length * (ε + 4 * δ) ∧ MInv C D S ε' s' ∧
        ∀ i, Asg s' i ↔ i ∈ fs ∨ Asg s i := by
  have hδ := hE.rounds.nn
  intro fs
  induction fs with
  | nil => intro s ε hε h _ _; exact ⟨s, ε, fun _ _ => rfl, hε, by simp, h, by simp⟩
  | cons f fs ih =>
    intro s ε hε h hnd hun
    rw [List.nodup_cons] at hnd
    obtain ⟨s1, hrun, h1, hasg⟩ := augment_spec hE h rfl hε hτ (hun f (by simp))
    have hE1 : 0 ≤ ε + 4 * δ := by linarith
    obtain ⟨s2, ε', hrun2, hε', hle, h2, hasg2⟩ := ih s1 ((n + 3) * (ε + 4 * δ)) (by positivity) h1
      hnd.2 (by
      intro g hg hc
      rcases (hasg g).1 hc with rfl | hc
      · exact hnd.1 hg
      · exact hun g (by simp [hg]) hc)
    refine ⟨s2, ε', ?_, hε', ?_, h2, ?_⟩
    · intro fuel hfu
      simp only [augmentAll, hrun fuel hfu, Option.bind_some, hrun2 fuel hfu]
    · refine hle.trans ?_
      rw [List.length_cons, pow_succ, mul_assoc]
      refine mul_le_mul_of_nonneg_left ?_ (by positivity)
      have : ((n : ℚ) + 4) * (ε + 4 * δ) = (n + 3) * (ε + 4 * δ) + ε + 4 * δ := by ring
      linarith
    · intro i
      rw [hasg2, hasg, List.mem_cons]
      constructor
      · rintro (h | h | h) <;> simp [h]
      · rintro ((h | h) | h) <;> simp [h]

end Verif.LapF
