import Verif.Lap.Dijkstra

/-! # One augmentation -/

namespace Verif.Lap

open XR

variable {n m : Nat}

theorem updatePrices_spec (d : Fin m → XR) (mn : XR) (js : List (Fin m)) :
    ∀ (v : Fin m → XR), js.Nodup → ∀ j,
      updatePrices d mn js v j = if j ∈ js then ((v j).add (d j)).sub mn else v j := by
  induction js with
  | nil => intro v _ j; simp [updatePrices]
  | cons k ks ih =>
    intro v hnd j
    rw [List.nodup_cons] at hnd
    have : updatePrices d mn (k :: ks) v =
        updatePrices d mn ks (Function.update v k (((v k).add (d k)).sub mn)) := rfl
    rw [this, ih _ hnd.2 j]
    by_cases hj : j = k
    · subst hj
      simp [hnd.1]
    · rw [Function.update_of_ne hj]
      simp [hj]

/-- Loop invariant of the path reversal and its result.  `P` bounds the position of the
predecessor of the current column `e`; `A` are the rows assigned at the start. -/
theorem flip_spec {colsol0 : Fin m → Option (Fin n)} {pred : Fin m → Fin n} {f : Fin n}
    {L : List (Fin m)} (hnd : L.Nodup) {low : Nat} {e0 : Fin m}
    (hfree : ∀ j, colsol0 j ≠ some f)
    (htree : ∀ (p : Nat) j, L[p]? = some j → p < low → pred j = f ∨
      ∃ (p' : Nat) (j1 : Fin m), L[p']? = some j1 ∧ p' < p ∧ colsol0 j1 = some (pred j)) :
    ∀ (P : Nat) (rowsol : Fin n → Option (Fin m)) (colsol : Fin m → Option (Fin n)) (e : Fin m),
      P ≤ low →
      (pred e = f ∨ ∃ (p' : Nat) (j1 : Fin m), L[p']? = some j1 ∧ p' < P ∧
        colsol0 j1 = some (pred e)) →
      (∀ (p : Nat), L[p]? = some e → P ≤ p) →
      (e = e0 ∨ ∃ p : Nat, L[p]? = some e ∧ p < low) →
      (∀ j i, j ≠ e → colsol j = some i → rowsol i = some j) →
      (∀ i, (∃ j, j ≠ e ∧ colsol j = some i) ↔ ∃ j, colsol0 j = some i) →
      (∀ (p : Nat) j, L[p]? = some j → p < P → colsol j = colsol0 j) →
      (∀ j, colsol j = colsol0 j ∨ (colsol j = some (pred j) ∧
        (j = e0 ∨ ∃ p : Nat, L[p]? = some j ∧ p < low))) →
      ∃ rowsol' colsol', (∀ fuel, P < fuel →
          flip pred f fuel rowsol colsol e = some (rowsol', colsol')) ∧
        (∀ j i, colsol' j = some i → rowsol' i = some j) ∧
        (∀ i, (∃ j, colsol' j = some i) ↔ i = f ∨ ∃ j, colsol0 j = some i) ∧
        (∀ j, colsol' j = colsol0 j ∨ (colsol' j = some (pred j) ∧
          (j = e0 ∨ ∃ p : Nat, L[p]? = some j ∧ p < low))) := by
  intro P
  induction P using Nat.strong_induction_on with
  | _ P ih =>
    intro rowsol colsol e hP hpe hpos he hrows hA hpre hch
    have hch' : ∀ j, Function.update colsol e (some (pred e)) j = colsol0 j ∨
        (Function.update colsol e (some (pred e)) j = some (pred j) ∧
          (j = e0 ∨ ∃ p : Nat, L[p]? = some j ∧ p < low)) := by
      intro j
      by_cases hj : j = e
      · subst hj
        rw [Function.update_self]
        exact Or.inr ⟨rfl, he⟩
      · rw [Function.update_of_ne hj]; exact hch j
    by_cases hif : pred e = f
    · refine ⟨Function.update rowsol (pred e) (some e), Function.update colsol e (some (pred e)),
        ?_, ?_, ?_, hch'⟩
      · intro fuel hfu
        obtain ⟨f', rfl⟩ : ∃ f', fuel = f' + 1 := ⟨fuel - 1, by omega⟩
        simp only [flip]
        rw [if_pos hif]
      · intro j i hj
        by_cases hje : j = e
        · subst hje
          rw [Function.update_self] at hj
          rw [← Option.some.inj hj, Function.update_self]
        · rw [Function.update_of_ne hje] at hj
          have hne : i ≠ pred e := by
            intro ei
            obtain ⟨j0, hj0⟩ := (hA i).1 ⟨j, hje, hj⟩
            rw [ei, hif] at hj0
            exact hfree j0 hj0
          rw [Function.update_of_ne hne]
          exact hrows j i hje hj
      · intro i
        constructor
        · rintro ⟨j, hj⟩
          by_cases hje : j = e
          · subst hje
            rw [Function.update_self] at hj
            left
            rw [← Option.some.inj hj, hif]
          · rw [Function.update_of_ne hje] at hj
            exact Or.inr ((hA i).1 ⟨j, hje, hj⟩)
        · rintro (rfl | hex)
          · exact ⟨e, by rw [Function.update_self, hif]⟩
          · obtain ⟨j, hje, hj⟩ := (hA i).2 hex
            exact ⟨j, by rw [Function.update_of_ne hje]; exact hj⟩
    · obtain ⟨p', j1, hp', hp'P, hc0⟩ := hpe.resolve_left hif
      have hj1e : j1 ≠ e := by
        rintro rfl
        have := hpos p' hp'
        omega
      have hc1 : colsol j1 = some (pred e) := by rw [hpre p' j1 hp' hp'P]; exact hc0
      have hr1 : rowsol (pred e) = some j1 := hrows j1 _ hj1e hc1
      obtain ⟨rs, cs, hrun, hres⟩ := ih p' hp'P (Function.update rowsol (pred e) (some e))
        (Function.update colsol e (some (pred e))) j1 (by omega)
        (htree p' j1 hp' (by omega))
        (by intro p hp; rw [pos_inj hnd hp hp'])
        (Or.inr ⟨p', hp', by omega⟩)
        (by
          intro j i hj1 hj
          by_cases hje : j = e
          · subst hje
            rw [Function.update_self] at hj
            rw [← Option.some.inj hj, Function.update_self]
          · rw [Function.update_of_ne hje] at hj
            have hne : i ≠ pred e := by
              intro ei
              have := hrows j i hje hj
              rw [ei, hr1] at this
              exact hj1 (Option.some.inj this).symm
            rw [Function.update_of_ne hne]
            exact hrows j i hje hj)
        (by
          intro i
          rw [← hA i]
          constructor
          · rintro ⟨j, hjj1, hj⟩
            by_cases hje : j = e
            · subst hje
              rw [Function.update_self] at hj
              exact ⟨j1, hj1e, by rw [hc1]; exact hj⟩
            · rw [Function.update_of_ne hje] at hj
              exact ⟨j, hje, hj⟩
          · rintro ⟨j, hje, hj⟩
            by_cases hjj1 : j = j1
            · subst hjj1
              rw [hc1] at hj
              exact ⟨e, hje.symm, by rw [Function.update_self]; exact hj⟩
            · exact ⟨j, hjj1, by rw [Function.update_of_ne hje]; exact hj⟩)
        (by
          intro p j hp hpp
          have hje : j ≠ e := by
            rintro rfl
            have := hpos p hp
            omega
          rw [Function.update_of_ne hje]
          exact hpre p j hp (by omega))
        hch'
      refine ⟨rs, cs, ?_, hres⟩
      intro fuel hfu
      obtain ⟨f', rfl⟩ : ∃ f', fuel = f' + 1 := ⟨fuel - 1, by omega⟩
      simp only [flip]
      rw [if_neg hif, hr1]
      exact hrun f' (by omega)

/-- Capped distance. -/
def capD (d : XR) (μ : ℚ) : ℚ := match d with
  | fin x => min x μ
  | _ => μ

theorem capD_le (d : XR) (μ : ℚ) : capD d μ ≤ μ := by
  cases d <;> simp [capD]

theorem capD_le_fin {d : XR} {x μ : ℚ} (h : d = fin x) : capD d μ ≤ x := by
  subst h; simp [capD]

theorem capD_eq_fin {d : XR} {x μ : ℚ} (h : d = fin x) (hx : x ≤ μ) : capD d μ = x := by
  subst h; simp [capD, hx]

theorem capD_eq_of_le {d : XR} {μ : ℚ} (h : Le (fin μ) d) : capD d μ = μ := by
  cases d with
  | fin x =>
    obtain ⟨a, ha, hle⟩ := h x rfl
    injection ha with ha
    simp [capD, ha, hle]
  | _ => rfl

theorem mem_take_iff {L : List (Fin m)} {k : Nat} {j : Fin m} :
    j ∈ L.take k ↔ ∃ p : Nat, L[p]? = some j ∧ p < k := by
  rw [List.mem_iff_getElem?]
  constructor
  · rintro ⟨p, hp⟩
    rw [List.getElem?_take] at hp
    split at hp
    · exact ⟨p, hp, by assumption⟩
    · cases hp
  · rintro ⟨p, hp, hk⟩
    exact ⟨p, by rw [List.getElem?_take, if_pos hk]; exact hp⟩

theorem augment_spec {C : Cost n m} (hC : CostOk C) {s : St n m} (h : Inv C s)
    {τ : Fin n → Fin m} (hτ : Feasible C τ) {f : Fin n} (hf : ¬ Asg s f) :
    ∃ s', (∀ fuel, m < fuel → augment C fuel f s = some s') ∧ Inv C s' ∧
      ∀ i, Asg s' i ↔ i = f ∨ Asg s i := by
  obtain ⟨t, e, μ, hrun, hp⟩ := dijkstra_spec hC h hτ hf m _ 0 rfl (dInv_init hC h f)
  have hl1 := hp.l1
  -- the column found is not scanned
  have hepos : ∀ p : Nat, t.L[p]? = some e → t.low ≤ p := by
    intro p hpe
    by_contra hc
    obtain ⟨i, hi⟩ := hp.asg p e hpe (by omega)
    rw [hp.free] at hi; cases hi
  have hlowm : t.low ≤ m := by
    obtain ⟨p, hpe⟩ := mem_of_perm hp.nd hp.len e
    have h1 := hepos p hpe
    have h2 : p < t.L.length := (List.getElem?_eq_some_iff.1 hpe).1
    rw [hp.len] at h2
    omega
  obtain ⟨rowsol', colsol', hflip, hrows, hasg, hch⟩ := flip_spec (colsol0 := s.colsol)
    (pred := t.pred) (f := f) (L := t.L) hp.nd (low := t.low) (e0 := e)
    (fun j hj => hf ⟨j, hj⟩)
    (by
      intro p j hpj hpl
      obtain ⟨x, hx, _⟩ := hp.ready p j hpj hpl
      rcases hp.pred p j x hpj hpl hx with ⟨h1, _⟩ | ⟨p', j1, x1, a, b, h1, h2, h3, _⟩
      · exact Or.inl h1
      · exact Or.inr ⟨p', j1, h1, h2, h3⟩)
    t.low s.rowsol s.colsol e (le_refl _)
    (by
      rcases hp.epred with ⟨h1, _⟩ | ⟨p', j1, x1, a, b, h1, h2, h3, _⟩
      · exact Or.inl h1
      · exact Or.inr ⟨p', j1, h1, h2, h3⟩)
    hepos (Or.inl rfl) (fun j i _ hj => h.rows j i hj)
    (by
      intro i
      constructor
      · rintro ⟨j, _, hj⟩; exact ⟨j, hj⟩
      · rintro ⟨j, hj⟩
        refine ⟨j, ?_, hj⟩
        rintro rfl
        rw [hp.free] at hj; cases hj)
    (fun _ _ _ _ => rfl) (fun _ => Or.inl rfl)
  have hndt : (t.L.take t.last1).Nodup := hp.nd.sublist (List.take_sublist _ _)
  -- capped distances
  have hDe : capD (t.d e) μ = μ := by
    obtain ⟨p, hpe⟩ := mem_of_perm hp.nd hp.len e
    exact capD_eq_of_le (hp.rest p e hpe (by have := hepos p hpe; omega))
  have hA : ∀ {j1 i j' a b}, s.colsol j1 = some i → red C s.v i j1 = fin b →
      red C s.v i j' = fin a → capD (t.d j') μ ≤ capD (t.d j1) μ + a - b := by
    intro j1 i j' a b hc hb ha
    obtain ⟨p, hpj⟩ := mem_of_perm hp.nd hp.len j1
    by_cases hpl : p < t.last1
    · obtain ⟨x, hx, hxμ⟩ := hp.ready p j1 hpj (by omega)
      rw [capD_eq_fin hx hxμ]
      rcases hp.relaxed p j1 i hpj hpl hc j' a ha x b hx hb with ⟨y, hy, hle⟩ | hle
      · exact (capD_le_fin hy).trans hle
      · exact (capD_le _ _).trans hle
    · rw [capD_eq_of_le (hp.rest p j1 hpj (by omega))]
      have h1 := h.red_tight hC hc hb ha
      have h2 := capD_le (t.d j') μ
      linarith
  have hB : ∀ {j' a}, red C s.v f j' = fin a → capD (t.d j') μ ≤ a := by
    intro j' a ha
    obtain ⟨y, hy, hle⟩ := hp.init j' a ha
    exact (capD_le_fin hy).trans hle
  -- columns with finite distance have a finite price
  have hprice : ∀ {p : Nat} {j}, t.L[p]? = some j → p < t.low → ∃ q, s.v j = fin q := by
    intro p j hpj hpl
    obtain ⟨x, hx, _⟩ := hp.ready p j hpj hpl
    obtain ⟨a, ha⟩ := (hp.pred p j x hpj hpl hx).red_fin
    obtain ⟨_, q, _, hq, _⟩ := h.red_fin hC ha
    exact ⟨q, hq⟩
  -- new prices
  let v' := updatePrices t.d t.mn (t.L.take t.last1) s.v
  have hv'fin : ∀ j q, s.v j = fin q → v' j = fin (q + capD (t.d j) μ - μ) := by
    intro j q hq
    show updatePrices _ _ _ _ j = _
    rw [updatePrices_spec _ _ _ _ hndt]
    obtain ⟨p, hpj⟩ := mem_of_perm hp.nd hp.len j
    by_cases hpl : p < t.last1
    · rw [if_pos (mem_take_iff.2 ⟨p, hpj, hpl⟩)]
      obtain ⟨x, hx, hxμ⟩ := hp.ready p j hpj (by omega)
      rw [capD_eq_fin hx hxμ, hq, hx, hp.mn]
      rfl
    · rw [if_neg]
      · rw [capD_eq_of_le (hp.rest p j hpj (by omega)), hq]
        congr 1; ring
      · intro hmem
        obtain ⟨p2, hp2, hlt⟩ := mem_take_iff.1 hmem
        have := pos_inj hp.nd hpj hp2
        omega
  have hv'ninf : ∀ j, s.v j = ninf → v' j = ninf := by
    intro j hq
    show updatePrices _ _ _ _ j = _
    rw [updatePrices_spec _ _ _ _ hndt, if_neg]
    · exact hq
    · intro hmem
      obtain ⟨p2, hp2, hlt⟩ := mem_take_iff.1 hmem
      obtain ⟨q, hq'⟩ := hprice hp2 (by omega)
      rw [hq] at hq'; cases hq'
  have hback : ∀ j b, v' j = fin b → ∃ q, s.v j = fin q ∧ b = q + capD (t.d j) μ - μ := by
    intro j b hb
    rcases h.isV j with hn | ⟨q, hq⟩
    · rw [hv'ninf j hn] at hb; cases hb
    · rw [hv'fin j q hq] at hb
      injection hb with hb
      exact ⟨q, hq, hb.symm⟩
  have hbackn : ∀ j, v' j = ninf → s.v j = ninf := by
    intro j hb
    rcases h.isV j with hn | ⟨q, hq⟩
    · exact hn
    · rw [hv'fin j q hq] at hb; cases hb
  -- new assignments
  have hnew : ∀ j i, colsol' j = some i → s.colsol j = some i ∨
      (i = t.pred j ∧ ∃ q, Reached C s f t.d t.L q i j (capD (t.d j) μ) ∧ q ≤ t.low) := by
    intro j i hj
    rcases hch j with h1 | ⟨h1, h2⟩
    · left; rw [← h1]; exact hj
    · right
      rw [h1] at hj
      have hij := (Option.some.inj hj).symm
      refine ⟨hij, ?_⟩
      rcases h2 with rfl | ⟨p, hpj, hpl⟩
      · rw [hDe, hij]; exact ⟨t.low, hp.epred, le_refl _⟩
      · obtain ⟨x, hx, hxμ⟩ := hp.ready p j hpj hpl
        rw [capD_eq_fin hx hxμ, hij]
        exact ⟨p, hp.pred p j x hpj hpl hx, by omega⟩
  refine ⟨⟨rowsol', colsol', v'⟩, ?_, ⟨hrows, ?_, ?_, ?_, ?_, ?_, ?_⟩, ?_⟩
  · intro fuel hfu
    simp only [augment, hrun fuel hfu, hflip fuel (by omega)]
    rfl
  · intro j i hj
    rcases hnew j i hj with h1 | ⟨_, q, h1, _⟩
    · exact h.finC j i h1
    · obtain ⟨a, ha⟩ := h1.red_fin
      obtain ⟨c, _, hc, _⟩ := h.red_fin hC ha
      exact ⟨c, hc⟩
  · intro j
    rcases h.isV j with hn | ⟨q, hq⟩
    · exact Or.inl (hv'ninf j hn)
    · exact Or.inr ⟨_, hv'fin j q hq⟩
  · intro j b hb
    obtain ⟨q, hq, rfl⟩ := hback j b hb
    have h1 := h.nonpos j q hq
    have h2 := capD_le (t.d j) μ
    linarith
  · intro j hj
    simp only at hj ⊢
    have hj0 : s.colsol j = none := by
      rcases hch j with h1 | ⟨h1, _⟩
      · rw [← h1]; exact hj
      · rw [hj] at h1; cases h1
    rw [hv'fin j 0 (h.free j hj0)]
    obtain ⟨p, hpj⟩ := mem_of_perm hp.nd hp.len j
    rw [capD_eq_of_le]
    · congr 1; ring
    · refine hp.rest p j hpj ?_
      by_contra hc
      obtain ⟨i, hi⟩ := hp.asg p j hpj (by omega)
      rw [hj0] at hi; cases hi
  · intro j i hj a ha j' b hCf hb
    simp only at hj ha hb
    obtain ⟨q, hq, rfl⟩ := hback j a ha
    obtain ⟨q', hq', rfl⟩ := hback j' b hb
    obtain ⟨c', hc'⟩ := hCf
    have hr' : red C s.v i j' = fin (c' - q') := by rw [red, hc', hq']; rfl
    rw [hc', val_fin]
    rcases hnew j i hj with h1 | ⟨_, qq, h1, hqq⟩
    · obtain ⟨c, hc⟩ := h.finC j i h1
      have hr : red C s.v i j = fin (c - q) := by rw [red, hc, hq]; rfl
      have := hA h1 hr hr'
      rw [hc, val_fin]
      linarith
    · rcases h1 with ⟨rfl, h2⟩ | ⟨p', j1, x1, r, b1, h2, h3, h4, h5, h6, h7, h8⟩
      · obtain ⟨c, q0, hc, hq0, hx⟩ := h.red_fin hC h2
        rw [hq] at hq0
        injection hq0 with hq0
        have := hB hr'
        rw [hc, val_fin]
        subst hq0
        linarith
      · obtain ⟨c, q0, hc, hq0, hx⟩ := h.red_fin hC h6
        rw [hq] at hq0
        injection hq0 with hq0
        subst hq0
        obtain ⟨x1', hx1', hxμ⟩ := hp.ready p' j1 h2 (by omega)
        rw [h5] at hx1'
        injection hx1' with hx1'
        subst hx1'
        have := hA h4 h7 hr'
        rw [capD_eq_fin h5 hxμ] at this
        rw [hc, val_fin]
        linarith
  · obtain ⟨rank, hr⟩ := h.forced
    refine ⟨rank, ?_⟩
    intro j i hv hj j' hCf
    simp only at hv hj ⊢
    have hvj := hbackn j hv
    have hj0 : s.colsol j = some i := by
      rcases hnew j i hj with h1 | ⟨_, q, h1, _⟩
      · exact h1
      · obtain ⟨a, ha⟩ := h1.red_fin
        obtain ⟨_, q', _, hq', _⟩ := h.red_fin hC ha
        rw [hvj] at hq'; cases hq'
    obtain ⟨r1, r2⟩ := hr j i hvj hj0 j' hCf
    exact ⟨hv'ninf j' r1, r2⟩
  · exact hasg

theorem augmentAll_spec {C : Cost n m} (hC : CostOk C) {τ : Fin n → Fin m}
    (hτ : Feasible C τ) : ∀ (fs : List (Fin n)) (s : St n m), Inv C s → fs.Nodup →
      (∀ f ∈ fs, ¬ Asg s f) →
      ∃ s', (∀ fuel, m < fuel → augmentAll C fuel fs s = some s') ∧ Inv C s' ∧
        ∀ i, Asg s' i ↔ i ∈ fs ∨ Asg s i := by
  intro fs
  induction fs with
  | nil => intro s h _ _; exact ⟨s, fun _ _ => rfl, h, by simp⟩
  | cons f fs ih =>
    intro s h hnd hun
    rw [List.nodup_cons] at hnd
    obtain ⟨s1, hrun, h1, hasg⟩ := augment_spec hC h hτ (hun f (by simp))
    obtain ⟨s2, hrun2, h2, hasg2⟩ := ih s1 h1 hnd.2 (by
      intro g hg hc
      rcases (hasg g).1 hc with rfl | hc
      · exact hnd.1 hg
      · exact hun g (by simp [hg]) hc)
    refine ⟨s2, ?_, h2, ?_⟩
    · intro fuel hfu
      simp only [augmentAll, hrun fuel hfu, Option.bind_some, hrun2 fuel hfu]
    · intro i
      rw [hasg2, hasg, List.mem_cons]
      constructor
      · rintro (h | h | h) <;> simp [h]
      · rintro ((h | h) | h) <;> simp [h]

end Verif.Lap
