import Verif.Lap.Basic
import Mathlib.Data.List.Nodup

/-! # Shortest path search -/

namespace Verif.Lap

open XR

variable {n m : Nat}

/-- Reduced cost. -/
abbrev red (C : Cost n m) (v : Fin m → XR) (i : Fin n) (j : Fin m) : XR := (C i j).sub (v j)

theorem Inv.redC {C : Cost n m} (hC : CostOk C) {s : St n m} (h : Inv C s) (i : Fin n)
    (j : Fin m) : IsC (red C s.v i j) := sub_isC (hC i j) (h.isV j)

theorem Inv.red_fin {C : Cost n m} (hC : CostOk C) {s : St n m} (h : Inv C s) {i : Fin n}
    {j : Fin m} {a : ℚ} (ha : red C s.v i j = fin a) :
    ∃ c q, C i j = fin c ∧ s.v j = fin q ∧ a = c - q := by
  have := (sub_isFin_iff (hC i j) (h.isV j)).1 ⟨a, ha⟩
  obtain ⟨⟨c, hc⟩, ⟨q, hq⟩⟩ := this
  refine ⟨c, q, hc, hq, ?_⟩
  rw [red, hc, hq, sub_fin_fin] at ha
  injection ha with ha
  exact ha.symm

/-- Tightness in terms of reduced costs. -/
theorem Inv.red_tight {C : Cost n m} (hC : CostOk C) {s : St n m} (h : Inv C s) {i : Fin n}
    {j1 j : Fin m} {a b : ℚ} (h1 : s.colsol j1 = some i) (hb : red C s.v i j1 = fin b)
    (ha : red C s.v i j = fin a) : b ≤ a := by
  obtain ⟨c1, q1, e1, e2, rfl⟩ := h.red_fin hC hb
  obtain ⟨c2, q2, e3, e4, rfl⟩ := h.red_fin hC ha
  have := h.tight j1 i h1 q1 e2 j q2 ⟨c2, e3⟩ e4
  rw [e1, e3] at this
  exact this

/-! ## Swapping two entries -/

theorem swap_spec {α : Type*} {L : List α} {k u : Nat} {j a : α} (hk : L[k]? = some j)
    (hu : L[u]? = some a) :
    ((L.set k a).set u j).length = L.length ∧
    ((L.set k a).set u j).Perm L ∧
    ((L.set k a).set u j)[u]? = some j ∧ ((L.set k a).set u j)[k]? = some a ∧
    ∀ p, p ≠ k → p ≠ u → ((L.set k a).set u j)[p]? = L[p]? := by
  obtain ⟨hk1, rfl⟩ := List.getElem?_eq_some_iff.1 hk
  obtain ⟨hu1, rfl⟩ := List.getElem?_eq_some_iff.1 hu
  refine ⟨by simp, List.set_set_perm hk1 hu1, by simp [hu1], ?_, ?_⟩
  · by_cases e : u = k
    · subst e; simp [hu1]
    · rw [List.getElem?_set_ne e]
      simp [hk1]
  · intro p h1 h2
    rw [List.getElem?_set_ne (Ne.symm h2), List.getElem?_set_ne (Ne.symm h1)]

/-! ## The search for the minimum -/

theorem minScan_spec {d : Fin m → XR} (hd : ∀ j, IsC (d j)) (low : Nat) :
    ∀ (r k up : Nat) (mn : XR) (L : List (Fin m)), k + r = L.length → low < up → up ≤ k →
      IsC mn →
      (∀ p j, L[p]? = some j → low ≤ p → p < up → d j = mn) →
      (∀ p j, L[p]? = some j → up ≤ p → p < k → Le mn (d j)) →
      ∃ up' mn' L', minScan d low r k up mn L = some (up', mn', L') ∧
        L'.Perm L ∧ (∀ p, p < low → L'[p]? = L[p]?) ∧ low < up' ∧ up' ≤ L.length ∧ IsC mn' ∧
        (∀ p j, L'[p]? = some j → low ≤ p → p < up' → d j = mn') ∧
        (∀ p j, L'[p]? = some j → up' ≤ p → Le mn' (d j)) := by
  intro r
  induction r with
  | zero =>
    intro k up mn L hk h1 h2 hmn h3 h4
    refine ⟨up, mn, L, rfl, List.Perm.refl _, fun _ _ => rfl, h1, by omega, hmn, h3, ?_⟩
    intro p j hp hup
    have : p < L.length := (List.getElem?_eq_some_iff.1 hp).1
    exact h4 p j hp hup (by omega)
  | succ r ih =>
    intro k up mn L hk h1 h2 hmn h3 h4
    have hkl : k < L.length := by omega
    obtain ⟨j, hj⟩ : ∃ j, L[k]? = some j := ⟨L[k], List.getElem?_eq_getElem hkl⟩
    simp only [minScan, hj]
    by_cases hle : (d j).le mn = true
    · rw [if_pos hle]
      by_cases hlt : (d j).lt mn = true
      · rw [if_pos hlt, if_pos hlt]
        obtain ⟨a, ha⟩ : ∃ a, L[low]? = some a :=
          ⟨L[low], List.getElem?_eq_getElem (by omega)⟩
        rw [ha]
        simp only
        obtain ⟨s1, s2, s3, s4, s5⟩ := swap_spec hj ha
        have hle' : Le (d j) mn := (le_iff (hd j) hmn).1 hle
        obtain ⟨up', mn', L', e, q1, q2, q3, q4, q5, q6, q7⟩ := ih (k + 1) (low + 1) (d j)
          ((L.set k a).set low j) (by omega) (by omega) (by omega) (hd j) (by
            intro p j' hp hp1 hp2
            have : p = low := by omega
            subst this
            rw [s3] at hp
            rw [← Option.some.inj hp]) (by
            intro p j' hp hp1 hp2
            by_cases hpk : p = k
            · subst hpk
              rw [s4] at hp
              rw [← Option.some.inj hp, h3 low a ha (le_refl _) h1]
              exact hle'
            · rw [s5 p hpk (by omega)] at hp
              refine hle'.trans ?_
              by_cases hpu : p < up
              · rw [h3 p j' hp (by omega) hpu]; exact Le.refl hmn
              · exact h4 p j' hp (by omega) (by omega))
        refine ⟨up', mn', L', e, q1.trans s2, ?_, q3, by omega, q5, q6, q7⟩
        intro p hp
        rw [q2 p hp, s5 p (by omega) (by omega)]
      · rw [if_neg hlt, if_neg hlt]
        obtain ⟨a, ha⟩ : ∃ a, L[up]? = some a :=
          ⟨L[up], List.getElem?_eq_getElem (by omega)⟩
        rw [ha]
        simp only
        obtain ⟨s1, s2, s3, s4, s5⟩ := swap_spec hj ha
        have heq : d j = mn := by
          refine Le.antisymm (hd j) hmn ((le_iff (hd j) hmn).1 hle) ?_
          by_contra hc
          exact hlt ((lt_iff_not_le (hd j) hmn).2 hc)
        obtain ⟨up', mn', L', e, q1, q2, q3, q4, q5, q6, q7⟩ := ih (k + 1) (up + 1) mn
          ((L.set k a).set up j) (by omega) (by omega) (by omega) hmn (by
            intro p j' hp hp1 hp2
            by_cases hpu : p = up
            · subst hpu
              rw [s3] at hp
              rw [← Option.some.inj hp, heq]
            · rw [s5 p (by omega) hpu] at hp
              exact h3 p j' hp hp1 (by omega)) (by
            intro p j' hp hp1 hp2
            by_cases hpk : p = k
            · subst hpk
              rw [s4] at hp
              have : up < p := by omega
              rw [← Option.some.inj hp]
              exact h4 up a ha (le_refl _) (by omega)
            · rw [s5 p hpk (by omega)] at hp
              exact h4 p j' hp (by omega) (by omega))
        refine ⟨up', mn', L', e, q1.trans s2, ?_, q3, by omega, q5, q6, q7⟩
        intro p hp
        rw [q2 p hp, s5 p (by omega) (by omega)]
    · rw [if_neg hle]
      refine ih (k + 1) up mn L (by omega) h1 (by omega) hmn h3 ?_
      intro p j' hp hp1 hp2
      by_cases hpk : p = k
      · subst hpk
        rw [hj] at hp
        rw [← Option.some.inj hp]
        rcases Le.total (hd j) hmn with h5 | h5
        · exact absurd ((le_iff (hd j) hmn).2 h5) hle
        · exact h5
      · exact h4 p j' hp hp1 (by omega)

theorem firstFree_spec (colsol : Fin m → Option (Fin n)) (L : List (Fin m)) :
    ∀ (r k : Nat), k + r ≤ L.length →
      (∃ e p, firstFree colsol L r k = some (some e) ∧ L[p]? = some e ∧ k ≤ p ∧ p < k + r ∧
        colsol e = none) ∨
      (firstFree colsol L r k = some none ∧
        ∀ p j, L[p]? = some j → k ≤ p → p < k + r → ∃ i, colsol j = some i) := by
  intro r
  induction r with
  | zero => intro k _; right; exact ⟨rfl, fun p j _ h1 h2 => by omega⟩
  | succ r ih =>
    intro k hk
    obtain ⟨j, hj⟩ : ∃ j, L[k]? = some j := ⟨L[k], List.getElem?_eq_getElem (by omega)⟩
    simp only [firstFree, hj]
    cases hc : colsol j with
    | none => left; exact ⟨j, k, rfl, hj, le_refl _, by omega, hc⟩
    | some i =>
      simp only
      rcases ih (k + 1) (by omega) with ⟨e, p, h1, h2, h3, h4, h5⟩ | ⟨h1, h2⟩
      · left; exact ⟨e, p, h1, h2, by omega, by omega, h5⟩
      · right
        refine ⟨h1, ?_⟩
        intro p j' hp h3 h4
        by_cases hpk : p = k
        · subst hpk
          rw [hj] at hp
          rw [← Option.some.inj hp]
          exact ⟨i, hc⟩
        · exact h2 p j' hp (by omega) (by omega)

/-! ## The invariant of the search -/

/-- How column `j` with distance `x` is reached; `q` bounds the position of its predecessor. -/
def Reached (C : Cost n m) (s : St n m) (f : Fin n) (d : Fin m → XR) (L : List (Fin m))
    (q : Nat) (i : Fin n) (j : Fin m) (x : ℚ) : Prop :=
  (i = f ∧ red C s.v f j = fin x) ∨
  ∃ p' j1 x1 a b, L[p']? = some j1 ∧ p' < q ∧ s.colsol j1 = some i ∧ d j1 = fin x1 ∧
    red C s.v i j = fin a ∧ red C s.v i j1 = fin b ∧ x = x1 + a - b

/-- Invariant of the search from the free row `f`. -/
structure DInv (C : Cost n m) (s : St n m) (f : Fin n) (t : Dij n m) (μ : ℚ) : Prop where
  nd : t.L.Nodup
  len : t.L.length = m
  l1 : t.last1 ≤ t.low
  lu : t.low ≤ t.up
  um : t.up ≤ m
  dC : ∀ j, IsC (t.d j)
  mn : t.mn = fin μ
  ready : ∀ (p : Nat) j, t.L[p]? = some j → p < t.up → ∃ x, t.d j = fin x ∧ x ≤ μ
  cur : ∀ (p : Nat) j, t.L[p]? = some j → t.last1 ≤ p → p < t.up → t.d j = fin μ
  rest : 0 < t.up → ∀ (p : Nat) j, t.L[p]? = some j → t.up ≤ p → Le (fin μ) (t.d j)
  asg : ∀ (p : Nat) j, t.L[p]? = some j → p < t.up → ∃ i, s.colsol j = some i
  relaxed : ∀ (p : Nat) j i, t.L[p]? = some j → p < t.low → s.colsol j = some i → ∀ j' a,
    red C s.v i j' = fin a → ∃ y, t.d j' = fin y ∧
      ∀ x b, t.d j = fin x → red C s.v i j = fin b → y ≤ x + a - b
  init : ∀ j' a, red C s.v f j' = fin a → ∃ y, t.d j' = fin y ∧ y ≤ a
  pred : ∀ (p : Nat) j x, t.L[p]? = some j → t.d j = fin x →
    Reached C s f t.d t.L (min p t.low) (t.pred j) j x

theorem mem_of_perm {L : List (Fin m)} (hnd : L.Nodup) (hl : L.length = m) (j : Fin m) :
    ∃ p : Nat, L[p]? = some j := by
  have hmem : j ∈ L := by
    have h1 : L.toFinset.card = m := by rw [List.toFinset_card_of_nodup hnd, hl]
    have h2 : L.toFinset = Finset.univ := by
      apply Finset.eq_univ_of_card
      rw [h1, Fintype.card_fin]
    have : j ∈ L.toFinset := by rw [h2]; exact Finset.mem_univ j
    exact List.mem_toFinset.1 this
  exact List.mem_iff_getElem?.1 hmem

theorem pos_inj {L : List (Fin m)} (hnd : L.Nodup) {p q : Nat} {j : Fin m}
    (hp : L[p]? = some j) (hq : L[q]? = some j) : p = q := by
  obtain ⟨h1, e1⟩ := List.getElem?_eq_some_iff.1 hp
  obtain ⟨h2, e2⟩ := List.getElem?_eq_some_iff.1 hq
  exact (List.Nodup.getElem_inj_iff hnd).1 (e1.trans e2.symm)

/-- Finite distance means finite price. -/
theorem Reached.red_fin {C : Cost n m} {s : St n m} {f : Fin n} {d L q i j x}
    (h : Reached C s f d L q i j x) : ∃ a, red C s.v i j = fin a := by
  rcases h with ⟨rfl, e⟩ | ⟨_, _, _, a, _, _, _, _, _, e, _⟩
  · exact ⟨_, e⟩
  · exact ⟨_, e⟩

theorem DInv.price_fin {C : Cost n m} (hC : CostOk C) {s : St n m} (h : Inv C s) {f : Fin n}
    {t : Dij n m} {μ : ℚ} (hd : DInv C s f t μ) {j : Fin m} {x : ℚ} (hx : t.d j = fin x) :
    ∃ q, s.v j = fin q := by
  obtain ⟨p, hp⟩ := mem_of_perm hd.nd hd.len j
  obtain ⟨a, ha⟩ := (hd.pred p j x hp hx).red_fin
  obtain ⟨_, q, _, hq, _⟩ := h.red_fin hC ha
  exact ⟨q, hq⟩

/-- Some unscanned column has a finite distance. -/
theorem DInv.exists_fin {C : Cost n m} (hC : CostOk C) {s : St n m} (h : Inv C s)
    {τ : Fin n → Fin m} (hτ : Feasible C τ) {f : Fin n} (hf : ¬ Asg s f)
    {t : Dij n m} {μ : ℚ} (hd : DInv C s f t μ) (hul : t.up = t.low) :
    ∃ (p : Nat) (j : Fin m) (x : ℚ), t.L[p]? = some j ∧ t.up ≤ p ∧ t.d j = fin x := by
  classical
  obtain ⟨i', j, hj, hCf, h2⟩ := hall_escape h hτ f hf
    (Finset.univ.filter fun j => s.v j = ninf ∨ ∃ p : Nat, t.L[p]? = some j ∧ p < t.up) (by
      intro j hj
      rcases (Finset.mem_filter.1 hj).2 with hn | ⟨p, hp, hpu⟩
      · exact h.ninf_asg hn
      · exact hd.asg p j hp hpu)
  have hj' : ¬ (s.v j = ninf ∨ ∃ p : Nat, t.L[p]? = some j ∧ p < t.up) :=
    fun hc => hj (Finset.mem_filter.2 ⟨Finset.mem_univ _, hc⟩)
  obtain ⟨p, hp⟩ := mem_of_perm hd.nd hd.len j
  have hpu : t.up ≤ p := by
    by_contra hc
    exact hj' (Or.inr ⟨p, hp, by omega⟩)
  have hvj : IsFin (s.v j) := (h.isV j).resolve_left fun hn => hj' (Or.inl hn)
  obtain ⟨q, hq⟩ := hvj
  obtain ⟨c, hc⟩ := hCf
  have hred : red C s.v i' j = fin (c - q) := by rw [red, hc, hq]; rfl
  rcases h2 with rfl | ⟨j', hj1, hj2⟩
  · obtain ⟨y, hy, _⟩ := hd.init j _ hred
    exact ⟨p, j, y, hp, hpu, hy⟩
  · rcases (Finset.mem_filter.1 hj1).2 with hn | ⟨p', hp', hpu'⟩
    · obtain ⟨rank, hr⟩ := h.forced
      have := (hr j' i' hn hj2 j ⟨c, hc⟩).1
      rw [hq] at this; cases this
    · obtain ⟨y, hy, _⟩ := hd.relaxed p' j' i' hp' (by omega) hj2 j _ hred
      exact ⟨p, j, y, hp, hpu, hy⟩

/-! ## What the search returns -/

/-- Result of the search: distances `d`, minimum `μ` and the unassigned column `e`. -/
structure DPost (C : Cost n m) (s : St n m) (f : Fin n) (t : Dij n m) (μ : ℚ) (e : Fin m) :
    Prop where
  nd : t.L.Nodup
  len : t.L.length = m
  l1 : t.last1 ≤ t.low
  dC : ∀ j, IsC (t.d j)
  mn : t.mn = fin μ
  ready : ∀ (p : Nat) j, t.L[p]? = some j → p < t.low → ∃ x, t.d j = fin x ∧ x ≤ μ
  rest : ∀ (p : Nat) j, t.L[p]? = some j → t.last1 ≤ p → Le (fin μ) (t.d j)
  asg : ∀ (p : Nat) j, t.L[p]? = some j → p < t.low → ∃ i, s.colsol j = some i
  relaxed : ∀ (p : Nat) j i, t.L[p]? = some j → p < t.last1 → s.colsol j = some i → ∀ j' a,
    red C s.v i j' = fin a → ∀ x b, t.d j = fin x → red C s.v i j = fin b →
      (∃ y, t.d j' = fin y ∧ y ≤ x + a - b) ∨ μ ≤ x + a - b
  init : ∀ j' a, red C s.v f j' = fin a → ∃ y, t.d j' = fin y ∧ y ≤ a
  pred : ∀ (p : Nat) j x, t.L[p]? = some j → p < t.low → t.d j = fin x →
    Reached C s f t.d t.L p (t.pred j) j x
  free : s.colsol e = none
  epred : Reached C s f t.d t.L t.low (t.pred e) e μ

theorem newMin_spec {C : Cost n m} (hC : CostOk C) {s : St n m} (h : Inv C s)
    {τ : Fin n → Fin m} (hτ : Feasible C τ) {f : Fin n} (hf : ¬ Asg s f)
    {t : Dij n m} {μ : ℚ} (hd : DInv C s f t μ) (hul : t.up = t.low) :
    ∃ t' eo, newMin s.colsol t = some (t', eo) ∧ t'.low = t.low ∧ ∃ μ',
      ((∃ e, eo = some e ∧ DPost C s f t' μ' e) ∨
       (eo = none ∧ DInv C s f t' μ' ∧ t'.low < t'.up)) := by
  obtain ⟨pf, jf, xf, hpf, hupf, hxf⟩ := hd.exists_fin hC h hτ hf hul
  have hpl : pf < m := by
    rw [← hd.len]; exact (List.getElem?_eq_some_iff.1 hpf).1
  have hupm : t.up < t.L.length := by rw [hd.len]; omega
  obtain ⟨j0, hj0⟩ : ∃ j0, t.L[t.up]? = some j0 := ⟨t.L[t.up], List.getElem?_eq_getElem hupm⟩
  obtain ⟨up', mn', L', e1, q1, q2, q3, q4, q5, q6, q7⟩ :=
    minScan_spec hd.dC t.low (m - (t.up + 1)) (t.up + 1) (t.up + 1) (t.d j0) t.L
      (by rw [hd.len]; omega) (by omega) (le_refl _) (hd.dC j0)
      (by
        intro p j hp h1 h2
        have : p = t.up := by omega
        subst this
        rw [hj0] at hp
        rw [Option.some.inj hp])
      (by intro p j _ h1 h2; omega)
  have hlen' : L'.length = m := by rw [q1.length_eq, hd.len]
  have hnd' : L'.Nodup := q1.nodup_iff.2 hd.nd
  -- the minimum is finite
  have hge : ∀ (p : Nat) j, L'[p]? = some j → t.low ≤ p → Le mn' (t.d j) := by
    intro p j hp h1
    by_cases h2 : p < up'
    · rw [q6 p j hp h1 h2]; exact Le.refl q5
    · exact q7 p j hp (by omega)
  obtain ⟨pf', hpf'⟩ := mem_of_perm hnd' hlen' jf
  have hpf'l : t.low ≤ pf' := by
    by_contra hc
    have hc : pf' < t.low := by omega
    rw [q2 pf' hc] at hpf'
    have := pos_inj hd.nd hpf hpf'
    omega
  obtain ⟨μ', hμ', _⟩ := hge pf' jf hpf' hpf'l xf hxf
  -- positions at or after `low` are the same columns
  have hback : ∀ (p : Nat) j, L'[p]? = some j → t.low ≤ p →
      ∃ p0 : Nat, t.L[p0]? = some j ∧ t.low ≤ p0 := by
    intro p j hp h1
    obtain ⟨p0, hp0⟩ := mem_of_perm hd.nd hd.len j
    refine ⟨p0, hp0, ?_⟩
    by_contra hc
    have hc : p0 < t.low := by omega
    rw [← q2 p0 hc] at hp0
    have := pos_inj hnd' hp0 hp
    omega
  have hlow : ∀ {p : Nat} {j}, L'[p]? = some j → p < t.low → t.L[p]? = some j := by
    intro p j hp h1; rw [← q2 p h1]; exact hp
  have hmono : 0 < t.up → μ ≤ μ' := by
    intro h0
    obtain ⟨jm, hjm⟩ : ∃ jm, L'[t.low]? = some jm :=
      ⟨L'[t.low]'(by omega), List.getElem?_eq_getElem _⟩
    obtain ⟨p0, hp0, hp0l⟩ := hback t.low jm hjm (le_refl _)
    have h1 := hd.rest h0 p0 jm hp0 (by omega)
    rw [q6 t.low jm hjm (le_refl _) q3, hμ'] at h1
    obtain ⟨a, ha, hle⟩ := h1 _ rfl
    injection ha with ha
    rw [ha]; exact hle
  have hready : ∀ (p : Nat) j, L'[p]? = some j → p < t.low → ∃ x, t.d j = fin x ∧ x ≤ μ' := by
    intro p j hp h1
    obtain ⟨x, hx, hle⟩ := hd.ready p j (hlow hp h1) (by omega)
    exact ⟨x, hx, hle.trans (hmono (by omega))⟩
  have hpred : ∀ (p : Nat) j x, L'[p]? = some j → t.d j = fin x →
      Reached C s f t.d L' (min p t.low) (t.pred j) j x := by
    intro p j x hp hx
    have hpp : ∃ p0 : Nat, t.L[p0]? = some j ∧ min p0 t.low = min p t.low := by
      by_cases h1 : p < t.low
      · exact ⟨p, hlow hp h1, rfl⟩
      · obtain ⟨p0, h2, h3⟩ := hback p j hp (by omega)
        exact ⟨p0, h2, by omega⟩
    obtain ⟨p0, h2, h3⟩ := hpp
    rcases hd.pred p0 j x h2 hx with h4 | ⟨p', j1, x1, a, b, h4, h5, h6⟩
    · exact Or.inl h4
    · rw [h3] at h5
      exact Or.inr ⟨p', j1, x1, a, b, by rw [q2 p' (by omega)]; exact h4, h5, h6⟩
  have hasg : ∀ (p : Nat) j, L'[p]? = some j → p < t.low → ∃ i, s.colsol j = some i :=
    fun p j hp h1 => hd.asg p j (hlow hp h1) (by omega)
  unfold newMin
  rw [hj0]
  simp only [e1]
  rcases firstFree_spec s.colsol L' (up' - t.low) t.low (by rw [hlen']; rw [hd.len] at q4; omega)
    with ⟨e, p, h1, h2, h3, h4, h5⟩ | ⟨h1, h2⟩
  · rw [h1]
    simp only
    refine ⟨_, _, rfl, rfl, μ', Or.inl ⟨e, rfl, ?_⟩⟩
    have hde : t.d e = fin μ' := by rw [q6 p e h2 h3 (by omega), hμ']
    refine ⟨hnd', hlen', le_refl _, hd.dC, hμ', hready, ?_, hasg, ?_, hd.init, ?_, h5, ?_⟩
    · intro p j hp h6
      rw [← hμ']
      exact hge p j hp h6
    · intro p j i hp h6 hc j' a ha x b hx hb
      obtain ⟨y, hy, hle⟩ := hd.relaxed p j i (hlow hp h6) h6 hc j' a ha
      exact Or.inl ⟨y, hy, hle x b hx hb⟩
    · intro p j x hp h6 hx
      have := hpred p j x hp hx
      have h6' : p < t.low := h6
      rwa [Nat.min_eq_left (by omega)] at this
    · have := hpred p e μ' h2 hde
      rwa [Nat.min_eq_right h3] at this
  · rw [h1]
    simp only
    refine ⟨_, _, rfl, rfl, μ', Or.inr ⟨rfl, ?_, q3⟩⟩
    refine ⟨hnd', hlen', le_refl _, Nat.le_of_lt q3, by rw [hd.len] at q4; exact q4, hd.dC, hμ',
      ?_, ?_, ?_, ?_, ?_, hd.init, hpred⟩
    · intro p j hp h6
      by_cases h7 : p < t.low
      · exact hready p j hp h7
      · exact ⟨μ', by rw [← hμ']; exact q6 p j hp (by omega) h6, le_refl _⟩
    · intro p j hp h6 h7
      rw [← hμ']
      exact q6 p j hp h6 h7
    · intro _ p j hp h6
      rw [← hμ']
      exact q7 p j hp h6
    · intro p j hp h6
      by_cases h7 : p < t.low
      · exact hasg p j hp h7
      · exact h2 p j hp (by omega) (by simp only at h6; omega)
    · intro p j i hp h6 hc j' a ha
      exact hd.relaxed p j i (hlow hp h6) h6 hc j' a ha

/-! ## Relaxation -/

/-- Invariant of the relaxation loop at position `k`; `b` is the reduced cost of the scanned
column in row `i`. -/
structure RInv (C : Cost n m) (s : St n m) (t : Dij n m) (μ b : ℚ) (i : Fin n)
    (r : RelaxSt n m) (k : Nat) : Prop where
  perm : r.L.Perm t.L
  pre : ∀ p, p < t.up → r.L[p]? = t.L[p]?
  uu : t.up ≤ r.up
  uk : r.up ≤ k
  dC : ∀ j, IsC (r.d j)
  old : ∀ (p : Nat) j, t.L[p]? = some j → p < t.up → r.d j = t.d j ∧ r.pred j = t.pred j
  new : ∀ (p : Nat) j, r.L[p]? = some j → t.up ≤ p → p < r.up →
    r.d j = fin μ ∧ ∃ i', s.colsol j = some i'
  ge : ∀ (p : Nat) j, r.L[p]? = some j → r.up ≤ p → Le (fin μ) (r.d j)
  rel : ∀ (p : Nat) j a, r.L[p]? = some j → t.up ≤ p → p < k → red C s.v i j = fin a →
    ∃ y, r.d j = fin y ∧ y ≤ a - (b - μ)
  le : ∀ j, Le (r.d j) (t.d j)
  src : ∀ j, (r.d j = t.d j ∧ r.pred j = t.pred j) ∨
    (r.pred j = i ∧ ∃ a, red C s.v i j = fin a ∧ r.d j = fin (a - (b - μ)))

theorem relax_spec {C : Cost n m} (hC : CostOk C) {s : St n m} (h : Inv C s)
    {t : Dij n m} {μ b : ℚ} (hlen : t.L.length = m) (hnd : t.L.Nodup) {i : Fin n} {j1 : Fin m}
    (hc1 : s.colsol j1 = some i) (hb : red C s.v i j1 = fin b) :
    ∀ (rem k : Nat) (r : RelaxSt n m), k + rem = m → r.eop = none → RInv C s t μ b i r k →
      ∃ r', relax (C i) s.v (fin (b - μ)) (fin μ) s.colsol i rem k r = some r' ∧
        ((r'.eop = none ∧ RInv C s t μ b i r' m) ∨
         (∃ e r0 k' pe, r'.eop = some e ∧ RInv C s t μ b i r0 k' ∧ r'.d = r0.d ∧ r'.L = r0.L ∧
            r'.up = r0.up ∧ r'.pred = Function.update r0.pred e i ∧ s.colsol e = none ∧
            r0.L[pe]? = some e ∧ r0.up ≤ pe ∧ red C s.v i e = fin b)) := by
  intro rem
  induction rem with
  | zero =>
    intro k r hk he hr
    refine ⟨r, rfl, Or.inl ⟨he, ?_⟩⟩
    have : k = m := by omega
    subst this
    exact hr
  | succ rem ih =>
    intro k r hk he hr
    have hrl : r.L.length = m := by rw [hr.perm.length_eq, hlen]
    have hrnd : r.L.Nodup := hr.perm.nodup_iff.2 hnd
    have hkl : k < r.L.length := by omega
    obtain ⟨j, hj⟩ : ∃ j, r.L[k]? = some j := ⟨r.L[k], List.getElem?_eq_getElem hkl⟩
    simp only [relax, hj]
    have hredC := h.redC hC i j
    have hv2 : ((C i j).sub (s.v j)).sub (fin (b - μ)) = (red C s.v i j).sub (fin (b - μ)) := rfl
    rw [hv2]
    have hv2C : IsC ((red C s.v i j).sub (fin (b - μ))) := sub_isC hredC (Or.inr ⟨_, rfl⟩)
    by_cases hlt : ((red C s.v i j).sub (fin (b - μ))).lt (r.d j) = true
    · rw [if_pos hlt]
      -- the new distance is finite
      have hnle := (lt_iff_not_le hv2C (hr.dC j)).1 hlt
      obtain ⟨a, ha⟩ : ∃ a, red C s.v i j = fin a := by
        rcases hredC with e | ⟨a, e⟩
        · rw [e, sub_pinf_fin] at hnle
          exact absurd (Le.pinf _) hnle
        · exact ⟨a, e⟩
      have hba : b ≤ a := h.red_tight hC hc1 hb ha
      rw [ha, sub_fin_fin, feq_fin_fin]
      rw [ha, sub_fin_fin] at hnle
      have hdle : Le (fin (a - (b - μ))) (r.d j) :=
        (Le.total (Or.inr ⟨_, rfl⟩) (hr.dC j)).resolve_right hnle
      have hge : Le (fin μ) (fin (a - (b - μ))) := by
        intro c hc
        injection hc with hc
        exact ⟨μ, rfl, by linarith⟩
      -- column `j` is behind the ready ones
      have hnot : ∀ p : Nat, t.L[p]? = some j → ¬ p < t.up := by
        intro p hp hpu
        rw [← hr.pre p hpu] at hp
        have := pos_inj hrnd hp hj
        have := hr.uu; have := hr.uk
        omega
      by_cases heq : a - (b - μ) = μ
      · rw [if_pos (decide_eq_true heq)]
        cases hcs : s.colsol j with
        | none =>
          simp only
          refine ⟨_, rfl, Or.inr ⟨j, r, k, k, rfl, hr, rfl, rfl, rfl, rfl, hcs, hj, hr.uk, ?_⟩⟩
          rw [ha]; congr 1; linarith
        | some i' =>
          simp only
          obtain ⟨x, hx⟩ : ∃ x, r.L[r.up]? = some x :=
            ⟨r.L[r.up]'(by have := hr.uk; omega), List.getElem?_eq_getElem _⟩
          rw [hx]
          simp only
          obtain ⟨s1, s2, s3, s4, s5⟩ := swap_spec hj hx
          have huk := hr.uk
          have huu := hr.uu
          refine ih (k + 1) _ (by omega) he ?_
          refine ⟨s2.trans hr.perm, ?_, ?_, ?_, ?_, ?_, ?_, ?_, ?_, ?_, ?_⟩
          · intro p hp
            simp only
            rw [s5 p (by omega) (by omega), hr.pre p hp]
          · simp only; omega
          · simp only; omega
          · intro j'
            simp only
            by_cases hjj : j' = j
            · subst hjj; rw [Function.update_self]; exact Or.inr ⟨_, rfl⟩
            · rw [Function.update_of_ne hjj]; exact hr.dC j'
          · intro p j' hp hpu
            have hjj : j' ≠ j := by rintro rfl; exact hnot p hp hpu
            simp only
            rw [Function.update_of_ne hjj, Function.update_of_ne hjj]
            exact hr.old p j' hp hpu
          · intro p j' hp h1 h2
            simp only at hp h2 ⊢
            by_cases hpu : p = r.up
            · subst hpu
              rw [s3] at hp
              obtain rfl := Option.some.inj hp
              rw [Function.update_self, heq]
              exact ⟨rfl, i', hcs⟩
            · rw [s5 p (by omega) hpu] at hp
              have hjj : j' ≠ j := by
                rintro rfl
                have := pos_inj hrnd hp hj
                omega
              rw [Function.update_of_ne hjj]
              exact hr.new p j' hp h1 (by omega)
          · intro p j' hp h1
            simp only at hp h1 ⊢
            by_cases hjj : j' = j
            · subst hjj; rw [Function.update_self]; exact hge
            · rw [Function.update_of_ne hjj]
              by_cases hpk : p = k
              · subst hpk
                rw [s4] at hp
                obtain rfl := Option.some.inj hp
                exact hr.ge r.up _ hx (le_refl _)
              · rw [s5 p hpk (by omega)] at hp
                exact hr.ge p j' hp (by omega)
          · intro p j' a' hp h1 h2 ha'
            simp only at hp ⊢
            by_cases hjj : j' = j
            · subst hjj
              rw [Function.update_self]
              rw [ha] at ha'
              injection ha' with ha'
              exact ⟨_, rfl, by rw [ha']⟩
            · rw [Function.update_of_ne hjj]
              by_cases hpk : p = k
              · subst hpk
                rw [s4] at hp
                obtain rfl := Option.some.inj hp
                have hne : r.up ≠ p := by
                  intro e'
                  rw [e', hj] at hx
                  exact hjj (Option.some.inj hx).symm
                exact hr.rel r.up _ a' hx huu (by omega) ha'
              · by_cases hpu : p = r.up
                · subst hpu
                  rw [s3] at hp
                  exact absurd (Option.some.inj hp).symm hjj
                · rw [s5 p hpk hpu] at hp
                  exact hr.rel p j' a' hp h1 (by omega) ha'
          · intro j'
            simp only
            by_cases hjj : j' = j
            · subst hjj; rw [Function.update_self]; exact hdle.trans (hr.le j')
            · rw [Function.update_of_ne hjj]; exact hr.le j'
          · intro j'
            simp only
            by_cases hjj : j' = j
            · subst hjj
              rw [Function.update_self, Function.update_self]
              exact Or.inr ⟨rfl, a, ha, rfl⟩
            · rw [Function.update_of_ne hjj, Function.update_of_ne hjj]
              exact hr.src j'
      · rw [if_neg (by simpa using heq)]
        have huk := hr.uk
        have huu := hr.uu
        refine ih (k + 1) _ (by omega) he ?_
        refine ⟨hr.perm, hr.pre, huu, by simp only; omega, ?_, ?_, ?_, ?_, ?_, ?_, ?_⟩
        · intro j'
          simp only
          by_cases hjj : j' = j
          · subst hjj; rw [Function.update_self]; exact Or.inr ⟨_, rfl⟩
          · rw [Function.update_of_ne hjj]; exact hr.dC j'
        · intro p j' hp hpu
          have hjj : j' ≠ j := by rintro rfl; exact hnot p hp hpu
          simp only
          rw [Function.update_of_ne hjj, Function.update_of_ne hjj]
          exact hr.old p j' hp hpu
        · intro p j' hp h1 h2
          simp only at hp h2 ⊢
          have hjj : j' ≠ j := by
            rintro rfl
            have := pos_inj hrnd hp hj
            omega
          rw [Function.update_of_ne hjj]
          exact hr.new p j' hp h1 h2
        · intro p j' hp h1
          simp only at hp h1 ⊢
          by_cases hjj : j' = j
          · subst hjj; rw [Function.update_self]; exact hge
          · rw [Function.update_of_ne hjj]
            exact hr.ge p j' hp h1
        · intro p j' a' hp h1 h2 ha'
          simp only at hp ⊢
          by_cases hjj : j' = j
          · subst hjj
            rw [Function.update_self]
            rw [ha] at ha'
            injection ha' with ha'
            exact ⟨_, rfl, by rw [ha']⟩
          · rw [Function.update_of_ne hjj]
            have hpk : p ≠ k := by
              rintro rfl
              rw [hj] at hp
              exact hjj (Option.some.inj hp).symm
            exact hr.rel p j' a' hp h1 (by omega) ha'
        · intro j'
          simp only
          by_cases hjj : j' = j
          · subst hjj; rw [Function.update_self]; exact hdle.trans (hr.le j')
          · rw [Function.update_of_ne hjj]; exact hr.le j'
        · intro j'
          simp only
          by_cases hjj : j' = j
          · subst hjj
            rw [Function.update_self, Function.update_self]
            exact Or.inr ⟨rfl, a, ha, rfl⟩
          · rw [Function.update_of_ne hjj, Function.update_of_ne hjj]
            exact hr.src j'
    · rw [if_neg hlt]
      have huk := hr.uk
      refine ih (k + 1) r (by omega) he ?_
      refine ⟨hr.perm, hr.pre, hr.uu, by omega, hr.dC, hr.old, hr.new, hr.ge, ?_, hr.le, hr.src⟩
      intro p j' a' hp h1 h2 ha'
      by_cases hpk : p = k
      · subst hpk
        rw [hj] at hp
        obtain rfl := Option.some.inj hp
        have hle : Le (r.d j) ((red C s.v i j).sub (fin (b - μ))) := by
          by_contra hc
          exact hlt ((lt_iff_not_le hv2C (hr.dC j)).2 hc)
        rw [ha', sub_fin_fin] at hle
        exact hle _ rfl
      · exact hr.rel p j' a' hp h1 (by omega) ha'

theorem scanCol_spec {C : Cost n m} (hC : CostOk C) {s : St n m} (h : Inv C s) {f : Fin n}
    {t : Dij n m} {μ : ℚ} (hd : DInv C s f t μ) (hlu : t.low < t.up) :
    ∃ t' eo, scanCol C s.v s.colsol t = some (t', eo) ∧ t'.low = t.low + 1 ∧
      ((∃ e, eo = some e ∧ DPost C s f t' μ e) ∨ (eo = none ∧ DInv C s f t' μ)) := by
  have hum := hd.um
  have hl1 := hd.l1
  obtain ⟨j1, hj1⟩ : ∃ j1, t.L[t.low]? = some j1 :=
    ⟨t.L[t.low]'(by rw [hd.len]; omega), List.getElem?_eq_getElem _⟩
  obtain ⟨i, hi⟩ := hd.asg t.low j1 hj1 hlu
  have hdj1 : t.d j1 = fin μ := hd.cur t.low j1 hj1 hl1 hlu
  obtain ⟨q1, hq1⟩ := hd.price_fin hC h hdj1
  obtain ⟨c1, hc1⟩ := h.finC j1 i hi
  have hb : red C s.v i j1 = fin (c1 - q1) := by rw [red, hc1, hq1]; rfl
  have hh : ((C i j1).sub (s.v j1)).sub (fin μ) = fin (c1 - q1 - μ) := by
    rw [hc1, hq1]; rfl
  have hr0 : RInv C s t μ (c1 - q1) i ⟨t.d, t.pred, t.L, t.up, none⟩ t.up := by
    refine ⟨List.Perm.refl _, fun _ _ => rfl, le_refl _, le_refl _, hd.dC,
      fun _ _ _ _ => ⟨rfl, rfl⟩, ?_, ?_, ?_, ?_, fun j => Or.inl ⟨rfl, rfl⟩⟩
    · intro p j _ h1 h2; simp only at h2; omega
    · intro p j hp h1; exact hd.rest (by omega) p j hp h1
    · intro p j a _ h1 h2; omega
    · intro j; exact Le.refl (hd.dC j)
  obtain ⟨r, hrun, hres⟩ := relax_spec hC h hd.len hd.nd hi hb (m - t.up) t.up _
    (by omega) rfl hr0
  unfold scanCol
  rw [hj1]
  simp only [hi, hh, hd.mn, hrun]
  -- facts common to both outcomes, for a state satisfying the relaxation invariant
  have common : ∀ (r : RelaxSt n m) (k : Nat), RInv C s t μ (c1 - q1) i r k →
      r.L.Nodup ∧ r.L.length = m ∧
      (∀ (p : Nat) j, r.L[p]? = some j → p < t.up → t.L[p]? = some j ∧ r.d j = t.d j) ∧
      (∀ (p : Nat) j, r.L[p]? = some j → t.up ≤ p →
        ∃ p0 : Nat, t.L[p0]? = some j ∧ t.up ≤ p0) ∧
      (∀ j' a, red C s.v f j' = fin a → ∃ y, r.d j' = fin y ∧ y ≤ a) ∧
      (∀ (p : Nat) j i, r.L[p]? = some j → p < t.low → s.colsol j = some i → ∀ j' a,
        red C s.v i j' = fin a → ∃ y, r.d j' = fin y ∧
          ∀ x b, r.d j = fin x → red C s.v i j = fin b → y ≤ x + a - b) ∧
      (∀ (p : Nat) j x, r.L[p]? = some j → r.d j = fin x →
        Reached C s f r.d r.L (min p (t.low + 1)) (r.pred j) j x) := by
    intro r k hr
    have hrl : r.L.length = m := by rw [hr.perm.length_eq, hd.len]
    have hrnd : r.L.Nodup := hr.perm.nodup_iff.2 hd.nd
    have hpre : ∀ (p : Nat) j, r.L[p]? = some j → p < t.up →
        t.L[p]? = some j ∧ r.d j = t.d j := by
      intro p j hp hpu
      have hp' : t.L[p]? = some j := by rw [← hr.pre p hpu]; exact hp
      exact ⟨hp', (hr.old p j hp' hpu).1⟩
    have hback : ∀ (p : Nat) j, r.L[p]? = some j → t.up ≤ p →
        ∃ p0 : Nat, t.L[p0]? = some j ∧ t.up ≤ p0 := by
      intro p j hp h1
      obtain ⟨p0, hp0⟩ := mem_of_perm hd.nd hd.len j
      refine ⟨p0, hp0, ?_⟩
      by_contra hc
      have hc : p0 < t.up := by omega
      rw [← hr.pre p0 hc] at hp0
      have := pos_inj hrnd hp0 hp
      omega
    refine ⟨hrnd, hrl, hpre, hback, ?_, ?_, ?_⟩
    · intro j' a ha
      obtain ⟨y, hy, hle⟩ := hd.init j' a ha
      obtain ⟨y', hy', hle'⟩ := hr.le j' y hy
      exact ⟨y', hy', hle'.trans hle⟩
    · intro p j i' hp h1 hc j' a ha
      obtain ⟨hp', hdj⟩ := hpre p j hp (by omega)
      obtain ⟨y, hy, hle⟩ := hd.relaxed p j i' hp' h1 hc j' a ha
      obtain ⟨y', hy', hle'⟩ := hr.le j' y hy
      refine ⟨y', hy', ?_⟩
      intro x b hx hb'
      rw [hdj] at hx
      exact hle'.trans (hle x b hx hb')
    · intro p j x hp hx
      -- Reached in the old state gives Reached in the new one
      have lift : ∀ (p0 : Nat), t.L[p0]? = some j → min p0 t.low ≤ min p (t.low + 1) →
          t.d j = fin x → r.pred j = t.pred j →
          Reached C s f r.d r.L (min p (t.low + 1)) (r.pred j) j x := by
        intro p0 hp0 hle hdx hpr
        rw [hpr]
        rcases hd.pred p0 j x hp0 hdx with h4 | ⟨p', j2, x1, a, b, h4, h5, h6, h7, h8⟩
        · exact Or.inl h4
        · have hp'u : p' < t.up := by omega
          refine Or.inr ⟨p', j2, x1, a, b, by rw [hr.pre p' hp'u]; exact h4, by omega, h6, ?_, h8⟩
          rw [(hr.old p' j2 h4 hp'u).1]
          exact h7
      by_cases hpu : p < t.up
      · obtain ⟨hp', hdj⟩ := hpre p j hp hpu
        exact lift p hp' (by omega) (by rw [← hdj]; exact hx) (hr.old p j hp' hpu).2
      · obtain ⟨p0, hp0, hp0u⟩ := hback p j hp (by omega)
        rcases hr.src j with ⟨e1, e2⟩ | ⟨e1, a, ha, e2⟩
        · exact lift p0 hp0 (by omega) (by rw [← e1]; exact hx) e2
        · rw [e1]
          refine Or.inr ⟨t.low, j1, μ, a, c1 - q1, by rw [hr.pre t.low hlu]; exact hj1,
            by omega, hi, ?_, ha, hb, ?_⟩
          · rw [(hr.old t.low j1 hj1 hlu).1]; exact hdj1
          · rw [hx] at e2
            injection e2 with e2
            rw [e2]; ring
  rcases hres with ⟨he, hr⟩ | ⟨e, r0, k', pe, he, hr, hd', hL', hup', hpr', hfree, hpe, hpeu, hre⟩
  · -- no unassigned column found
    obtain ⟨k1, k2, k3, k4, k5, k6, k7⟩ := common r m hr
    rw [he]
    refine ⟨_, _, rfl, rfl, Or.inr ⟨rfl, ?_⟩⟩
    have huu := hr.uu
    refine ⟨k1, k2, by simp only; omega, by simp only; omega, hr.uk, hr.dC, rfl, ?_, ?_, ?_, ?_,
      ?_, k5, k7⟩
    · intro p j hp h1
      simp only at hp h1 ⊢
      by_cases h2 : p < t.up
      · obtain ⟨h3, h4⟩ := k3 p j hp h2
        rw [h4]; exact hd.ready p j h3 h2
      · exact ⟨μ, (hr.new p j hp (by omega) h1).1, le_refl _⟩
    · intro p j hp h0 h1
      simp only at hp h1 h0 ⊢
      by_cases h2 : p < t.up
      · obtain ⟨h3, h4⟩ := k3 p j hp h2
        rw [h4]; exact hd.cur p j h3 h0 h2
      · exact (hr.new p j hp (by omega) h1).1
    · intro _ p j hp h1
      exact hr.ge p j hp h1
    · intro p j hp h1
      simp only at hp h1
      by_cases h2 : p < t.up
      · exact hd.asg p j (k3 p j hp h2).1 h2
      · exact (hr.new p j hp (by omega) h1).2
    · intro p j i' hp h1 hc j' a ha
      simp only at hp h1 ⊢
      by_cases h2 : p < t.low
      · exact k6 p j i' hp h2 hc j' a ha
      · have hpl : p = t.low := by omega
        subst hpl
        have hp1 := (k3 _ j hp hlu).1
        rw [hj1] at hp1
        obtain rfl := Option.some.inj hp1
        rw [hi] at hc
        obtain rfl := Option.some.inj hc
        obtain ⟨p', hp'⟩ := mem_of_perm k1 k2 j'
        have hba : c1 - q1 ≤ a := h.red_tight hC hi hb ha
        have hrd : r.d j1 = fin μ := by rw [(k3 _ j1 hp hlu).2]; exact hdj1
        by_cases h3 : p' < t.up
        · obtain ⟨h4, h5⟩ := k3 p' j' hp' h3
          obtain ⟨y, hy, hle⟩ := hd.ready p' j' h4 h3
          refine ⟨y, by rw [h5]; exact hy, ?_⟩
          intro x b hx hb'
          rw [hrd] at hx; injection hx with hx
          rw [hb] at hb'; injection hb' with hb'
          linarith
        · have hp'm : p' < m := by
            rw [← k2]; exact (List.getElem?_eq_some_iff.1 hp').1
          obtain ⟨y, hy, hle⟩ := hr.rel p' j' a hp' (by omega) hp'm ha
          refine ⟨y, hy, ?_⟩
          intro x b hx hb'
          rw [hrd] at hx; injection hx with hx
          rw [hb] at hb'; injection hb' with hb'
          linarith
  · -- an unassigned column was found
    obtain ⟨k1, k2, k3, k4, k5, k6, k7⟩ := common r0 k' hr
    rw [he]
    have huu := hr.uu
    have hpred_ne : ∀ (p : Nat) j, r0.L[p]? = some j → p < t.up →
        r.pred j = r0.pred j := by
      intro p j hp h1
      rw [hpr', Function.update_of_ne]
      rintro rfl
      have := pos_inj k1 hp hpe
      omega
    refine ⟨_, _, rfl, rfl, Or.inl ⟨e, rfl, ?_⟩⟩
    refine ⟨by simp only; rw [hL']; exact k1, by simp only; rw [hL']; exact k2,
      by simp only; omega, ?_, rfl, ?_, ?_, ?_, ?_, ?_, ?_, hfree, ?_⟩
    · intro j; simp only; rw [hd']; exact hr.dC j
    · intro p j hp h1
      simp only at hp h1 ⊢
      rw [hL'] at hp
      obtain ⟨h3, h4⟩ := k3 p j hp (by omega)
      rw [hd', h4]; exact hd.ready p j h3 (by omega)
    · intro p j hp h1
      simp only at hp h1 ⊢
      rw [hL'] at hp
      rw [hd']
      by_cases h2 : p < t.up
      · obtain ⟨h3, h4⟩ := k3 p j hp h2
        rw [h4, hd.cur p j h3 h1 h2]
        exact Le.refl (Or.inr ⟨_, rfl⟩)
      · by_cases h5 : p < r0.up
        · rw [(hr.new p j hp (by omega) h5).1]
          exact Le.refl (Or.inr ⟨_, rfl⟩)
        · exact hr.ge p j hp (by omega)
    · intro p j hp h1
      simp only at hp h1
      rw [hL'] at hp
      exact hd.asg p j (k3 p j hp (by omega)).1 (by omega)
    · intro p j i' hp h1 hc j' a ha x b hx hb'
      simp only at hp h1 hx ⊢
      rw [hL'] at hp
      rw [hd'] at hx ⊢
      obtain ⟨y, hy, hle⟩ := k6 p j i' hp (by omega) hc j' a ha
      exact Or.inl ⟨y, hy, hle x b hx hb'⟩
    · simp only; rw [hd']; exact k5
    · intro p j x hp h1 hx
      simp only at hp h1 hx ⊢
      rw [hL'] at hp
      rw [hd'] at hx ⊢
      rw [hL', hpred_ne p j hp (by omega)]
      have := k7 p j x hp hx
      rwa [Nat.min_eq_left (by omega)] at this
    · simp only
      rw [hd', hL', hpr', Function.update_self]
      refine Or.inr ⟨t.low, j1, μ, c1 - q1, c1 - q1, by rw [hr.pre t.low hlu]; exact hj1,
        by omega, hi, ?_, hre, hb, by ring⟩
      rw [(hr.old t.low j1 hj1 hlu).1]; exact hdj1

theorem dijkstra_spec {C : Cost n m} (hC : CostOk C) {s : St n m} (h : Inv C s)
    {τ : Fin n → Fin m} (hτ : Feasible C τ) {f : Fin n} (hf : ¬ Asg s f) :
    ∀ (M : Nat) (t : Dij n m) (μ : ℚ), m - t.low = M → DInv C s f t μ →
      ∃ t' e μ', (∀ fuel, M < fuel → dijkstra C s.v s.colsol fuel t = some (t', e)) ∧
        DPost C s f t' μ' e := by
  intro M
  induction M with
  | zero =>
    intro t μ hM hd
    -- impossible: all columns are scanned
    exfalso
    have h1 := hd.lu
    have h2 := hd.um
    obtain ⟨p, j, x, hp, hup, _⟩ := hd.exists_fin hC h hτ hf (by omega)
    have : p < t.L.length := (List.getElem?_eq_some_iff.1 hp).1
    rw [hd.len] at this
    omega
  | succ M ih =>
    intro t μ hM hd
    by_cases hul : t.up = t.low
    · obtain ⟨t1, eo, e1, hl1, μ1, hres⟩ := newMin_spec hC h hτ hf hd hul
      rcases hres with ⟨e, rfl, hpost⟩ | ⟨rfl, hd1, hlt⟩
      · refine ⟨t1, e, μ1, ?_, hpost⟩
        intro fuel hfu
        obtain ⟨f', rfl⟩ : ∃ f', fuel = f' + 1 := ⟨fuel - 1, by omega⟩
        simp only [dijkstra, if_pos hul, e1]
      · obtain ⟨t2, eo, e2, hl2, hres⟩ := scanCol_spec hC h hd1 hlt
        rcases hres with ⟨e, rfl, hpost⟩ | ⟨rfl, hd2⟩
        · refine ⟨t2, e, μ1, ?_, hpost⟩
          intro fuel hfu
          obtain ⟨f', rfl⟩ : ∃ f', fuel = f' + 1 := ⟨fuel - 1, by omega⟩
          simp only [dijkstra, if_pos hul, e1, e2]
        · obtain ⟨t3, e, μ3, hrun, hpost⟩ := ih t2 μ1 (by omega) hd2
          refine ⟨t3, e, μ3, ?_, hpost⟩
          intro fuel hfu
          obtain ⟨f', rfl⟩ : ∃ f', fuel = f' + 1 := ⟨fuel - 1, by omega⟩
          simp only [dijkstra, if_pos hul, e1, e2]
          exact hrun f' (by omega)
    · have hlt : t.low < t.up := by have := hd.lu; omega
      obtain ⟨t2, eo, e2, hl2, hres⟩ := scanCol_spec hC h hd hlt
      rcases hres with ⟨e, rfl, hpost⟩ | ⟨rfl, hd2⟩
      · refine ⟨t2, e, μ, ?_, hpost⟩
        intro fuel hfu
        obtain ⟨f', rfl⟩ : ∃ f', fuel = f' + 1 := ⟨fuel - 1, by omega⟩
        simp only [dijkstra, if_neg hul, e2]
      · obtain ⟨t3, e, μ3, hrun, hpost⟩ := ih t2 μ (by omega) hd2
        refine ⟨t3, e, μ3, ?_, hpost⟩
        intro fuel hfu
        obtain ⟨f', rfl⟩ : ∃ f', fuel = f' + 1 := ⟨fuel - 1, by omega⟩
        simp only [dijkstra, if_neg hul, e2]
        exact hrun f' (by omega)

/-- The initial state of the search satisfies the invariant. -/
theorem dInv_init {C : Cost n m} (hC : CostOk C) {s : St n m} (h : Inv C s) (f : Fin n) :
    DInv C s f ⟨fun j => (C f j).sub (s.v j), fun _ => f, List.finRange m, 0, 0, 0, fin 0⟩ 0 := by
  refine ⟨List.nodup_finRange m, List.length_finRange, le_refl _, le_refl _, Nat.zero_le _,
    fun j => h.redC hC f j, rfl, ?_, ?_, ?_, ?_, ?_, ?_, ?_⟩
  · intro p j _ h1; exact absurd h1 (Nat.not_lt_zero _)
  · intro p j _ _ h1; exact absurd h1 (Nat.not_lt_zero _)
  · intro h1; exact absurd h1 (Nat.not_lt_zero _)
  · intro p j _ h1; exact absurd h1 (Nat.not_lt_zero _)
  · intro p j i _ h1; exact absurd h1 (Nat.not_lt_zero _)
  · intro j' a ha; exact ⟨a, ha, le_refl _⟩
  · intro p j x _ hx; exact Or.inl ⟨rfl, hx⟩

end Verif.Lap
