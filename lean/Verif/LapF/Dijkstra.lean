import Verif.LapF.Arr
import Verif.Lap.Dijkstra
import Mathlib.Tactic.Linarith

/-! # Shortest path search in rounded arithmetic -/

namespace Verif.LapF

open Verif.Lap Verif.Lap.XR

variable {n m : Nat}

/-- What is assumed of the machine and of the cost matrix: with `m` columns, numbers up to
`(10 m + 10) (K + 2 δ)` are still in the range of the rounding bound. -/
structure Env (A : Arith) (C : Cost n m) (D : Nat) (R K δ S : ℚ) : Prop where
  rounds : Rounds A D R δ
  ok : CostOk C
  scaled : Scaled C D K
  hS : S = K + 2 * δ
  hR : (10 * m + 10) * S ≤ R

/-- Invariant of the solver's state between augmentations, with slack `ε`. -/
structure MInv (C : Cost n m) (D : Nat) (S ε : ℚ) (s : St n m) : Prop extends VInv C s where
  prices : Prices D ((4 * m + 4) * S) s.v
  ub : ∀ j q, s.v j = fin q → q ≤ ε
  tight : ∀ j i, s.colsol j = some i → IsFin (s.v j) → ∀ j', FinAt C s.v i j' →
    redv C s.v i j ≤ redv C s.v i j' + ε

theorem Env.S_nonneg {A : Arith} {C : Cost n m} {D : Nat} {R K δ S : ℚ}
    (hE : Env A C D R K δ S) : 0 ≤ S := by
  have := hE.scaled.nn
  have := hE.rounds.nn
  rw [hE.hS]; linarith

/-- The bounds that the range assumption gives. -/
theorem Env.ranges {A : Arith} {C : Cost n m} {D : Nat} {R K δ S : ℚ}
    (hE : Env A C D R K δ S) : 0 ≤ (m : ℚ) * S ∧ 10 * ((m : ℚ) * S) + 10 * S ≤ R := by
  have h1 := hE.S_nonneg
  have h2 := hE.hR
  refine ⟨by positivity, ?_⟩
  have : (10 * (m : ℚ) + 10) * S = 10 * ((m : ℚ) * S) + 10 * S := by ring
  linarith

/-- A computed reduced cost, with its range. -/
theorem MInv.red_cases {A : Arith} {C : Cost n m} {D : Nat} {R K δ S ε : ℚ}
    (hE : Env A C D R K δ S) {s : St n m} (h : MInv C D S ε s) (i : Fin n) (j : Fin m) :
    (A.sub (C i j) (s.v j) = pinf ∧ ¬ FinAt C s.v i j) ∨
    (FinAt C s.v i j ∧ ∃ r, A.sub (C i j) (s.v j) = fin r ∧ |r - redv C s.v i j| ≤ δ ∧
      OnGrid D r ∧ |r| ≤ 4 * ((m : ℚ) * S) + 5 * S - δ) := by
  obtain ⟨g1, g2⟩ := hE.ranges
  have hS := hE.S_nonneg
  have hK := hE.scaled.nn
  have hδ := hE.rounds.nn
  have hSe := hE.hS
  have hV : (4 * (m : ℚ) + 4) * S = 4 * ((m : ℚ) * S) + 4 * S := by ring
  rcases LapF.red_cases hE.rounds hE.ok hE.scaled h.isV h.prices (by linarith) (by linarith) i j
    with h1 | ⟨h1, r, h2, h3, h4⟩
  · exact Or.inl h1
  · refine Or.inr ⟨h1, r, h2, h3, h4, ?_⟩
    obtain ⟨⟨c, hc⟩, ⟨q, hq⟩⟩ := h1
    have a1 := abs_le.1 (hE.scaled.le i j c hc)
    have a2 := abs_le.1 (h.prices j q hq).2
    rw [redv, hc, hq, val_fin, val_fin, abs_le] at h3
    rw [abs_le]
    constructor <;> linarith

/-- How column `j` with distance `x` is reached; `q` bounds the position of its predecessor. -/
def Reached (C : Cost n m) (s : St n m) (f : Fin n) (δ : ℚ) (d : Fin m → XR) (L : List (Fin m))
    (q : Nat) (i : Fin n) (j : Fin m) (x : ℚ) : Prop :=
  FinAt C s.v i j ∧ ((i = f ∧ |x - redv C s.v f j| ≤ δ) ∨
  ∃ p' j1 x1, L[p']? = some j1 ∧ p' < q ∧ s.colsol j1 = some i ∧ d j1 = fin x1 ∧
    FinAt C s.v i j1 ∧ |x - (x1 + redv C s.v i j - redv C s.v i j1)| ≤ 4 * δ)

/-- A distance is the cost of a path of bounded length, less the price of the column reached. -/
theorem reached_bound {A : Arith} {C : Cost n m} {D : Nat} {R K δ S : ℚ}
    (hE : Env A C D R K δ S) {s : St n m} {f : Fin n} {d : Fin m → XR} {L : List (Fin m)}
    {low : Nat} {pred : Fin m → Fin n}
    (hpred : ∀ (p : Nat) j x, L[p]? = some j → p < low → d j = fin x →
      Reached C s f δ d L p (pred j) j x) :
    ∀ (q : Nat), q ≤ low → ∀ i j x, Reached C s f δ d L q i j x →
      |x + (s.v j).val| ≤ (2 * q + 1) * S := by
  have hδ := hE.rounds.nn
  have hS := hE.S_nonneg
  have hSe := hE.hS
  intro q
  induction q using Nat.strong_induction_on with
  | _ q ih =>
    intro hq i j x hr
    obtain ⟨⟨⟨c, hc⟩, hv⟩, h2⟩ := hr
    have a1 := abs_le.1 (hE.scaled.le i j c hc)
    have hq0 : (0:ℚ) ≤ q * S := by positivity
    have hexp : (2 * (q : ℚ) + 1) * S = 2 * (q * S) + S := by ring
    rcases h2 with ⟨rfl, h3⟩ | ⟨p', j1, x1, h3, h4, h5, h6, h7, h8⟩
    · rw [redv, hc, val_fin, abs_le] at h3
      rw [abs_le]
      constructor <;> linarith
    · have hb := ih p' h4 (by omega) _ _ _ (hpred p' j1 x1 h3 (by omega) h6)
      obtain ⟨c1, hc1⟩ := h7.1
      have a2 := abs_le.1 (hE.scaled.le i j1 c1 hc1)
      have hpq : ((p' : ℚ) + 1) * S ≤ q * S :=
        mul_le_mul_of_nonneg_right (by exact_mod_cast h4) hS
      have hexp' : (2 * (p' : ℚ) + 1) * S = 2 * ((p' + 1) * S) - S := by ring
      rw [redv, redv, hc, hc1, val_fin, val_fin, abs_le] at h8
      rw [abs_le] at hb
      rw [abs_le]
      constructor <;> linarith

/-- Invariant of the search from the free row `f`; `E` is the amount by which the current minimum
may be undercut later. -/
structure DInv (C : Cost n m) (D : Nat) (δ S E : ℚ) (s : St n m) (f : Fin n) (t : Dij n m)
    (μ : ℚ) : Prop where
  nd : t.L.Nodup
  len : t.L.length = m
  l1 : t.last1 ≤ t.low
  lu : t.low ≤ t.up
  um : t.up ≤ m
  l1u : 0 < t.up → t.last1 < t.up
  dC : ∀ j, IsC (t.d j)
  dG : ∀ j x, t.d j = fin x → OnGrid D x
  mn : t.mn = fin μ
  mnG : OnGrid D μ
  mnB : |μ| ≤ 6 * ((m : ℚ) * S) + 5 * S
  ready : ∀ (p : Nat) j, t.L[p]? = some j → p < t.up →
    ∃ x, t.d j = fin x ∧ x ≤ μ + t.last1 * E
  cur : ∀ (p : Nat) j, t.L[p]? = some j → t.last1 ≤ p → p < t.up → t.d j = fin μ
  rest : 0 < t.up → ∀ (p : Nat) j y, t.L[p]? = some j → t.up ≤ p → t.d j = fin y → μ - E ≤ y
  asg : ∀ (p : Nat) j, t.L[p]? = some j → p < t.up → ∃ i, s.colsol j = some i
  relaxed : ∀ (p : Nat) j i, t.L[p]? = some j → p < t.low → s.colsol j = some i → ∀ j',
    FinAt C s.v i j' → ∃ y, t.d j' = fin y ∧
      ∀ x, t.d j = fin x → y ≤ x + redv C s.v i j' - redv C s.v i j + n * E
  init : ∀ j', FinAt C s.v f j' → ∃ y, t.d j' = fin y ∧ y ≤ redv C s.v f j' + δ
  pred : ∀ (p : Nat) j x, t.L[p]? = some j → t.d j = fin x →
    Reached C s f δ t.d t.L (min p t.low) (t.pred j) j x

/-- The ready columns belong to different rows other than the free one. -/
theorem DInv.up_lt {C : Cost n m} {D : Nat} {δ S E : ℚ} {s : St n m} (h : VInv C s) {f : Fin n}
    (hf : ¬ Asg s f) {t : Dij n m} {μ : ℚ} (hd : DInv C D δ S E s f t μ) : t.up < n := by
  classical
  have hcol : ∀ p : Fin t.up, ∃ j, t.L[p.1]? = some j := fun p =>
    ⟨t.L[p.1]'(by rw [hd.len]; have := hd.um; omega), List.getElem?_eq_getElem _⟩
  choose col hcol using hcol
  have hrow : ∀ p : Fin t.up, ∃ i, s.colsol (col p) = some i := fun p =>
    hd.asg p.1 (col p) (hcol p) p.2
  choose row hrow using hrow
  have hinj : Function.Injective row := by
    intro p q e
    have h1 : col p = col q := h.inj (hrow p) (by rw [e]; exact hrow q)
    have h2 := hcol q
    rw [← h1] at h2
    exact Fin.ext (pos_inj hd.nd (hcol p) h2)
  have hsub : Finset.univ.image row ⊆ Finset.univ.erase f := by
    intro i hi
    obtain ⟨p, _, rfl⟩ := Finset.mem_image.1 hi
    refine Finset.mem_erase.2 ⟨?_, Finset.mem_univ _⟩
    intro e
    exact hf ⟨col p, by rw [← e]; exact hrow p⟩
  have hc := Finset.card_le_card hsub
  rw [Finset.card_image_of_injective _ hinj, Finset.card_univ, Fintype.card_fin,
    Finset.card_erase_of_mem (Finset.mem_univ _), Finset.card_univ, Fintype.card_fin] at hc
  have := f.pos
  omega

/-- Range of the distances. -/
theorem DInv.dist_bound {A : Arith} {C : Cost n m} {D : Nat} {R K δ S ε E : ℚ}
    (hE : Env A C D R K δ S) {s : St n m} (h : MInv C D S ε s) {f : Fin n} {t : Dij n m} {μ : ℚ}
    (hd : DInv C D δ S E s f t μ) {j : Fin m} {x : ℚ} (hx : t.d j = fin x) :
    |x| ≤ 6 * ((m : ℚ) * S) + 5 * S := by
  obtain ⟨p, hp⟩ := mem_of_perm hd.nd hd.len j
  have hr := hd.pred p j x hp hx
  have hb := reached_bound hE (low := t.low) (pred := t.pred)
    (fun p j x hp hl hx => by
      have := hd.pred p j x hp hx
      rwa [Nat.min_eq_left (by omega)] at this) (min p t.low) (by omega) _ _ _ hr
  obtain ⟨q, hq⟩ := hr.1.2
  have hv := abs_le.1 (h.prices j q hq).2
  rw [hq, val_fin, abs_le] at hb
  have hlm : min p t.low ≤ m := by have := hd.lu; have := hd.um; omega
  have hS := hE.S_nonneg
  have hle : ((min p t.low : ℕ) : ℚ) * S ≤ m * S :=
    mul_le_mul_of_nonneg_right (by exact_mod_cast hlm) hS
  have e1 : (2 * ((min p t.low : ℕ) : ℚ) + 1) * S = 2 * (((min p t.low : ℕ) : ℚ) * S) + S := by ring
  have e2 : (4 * (m : ℚ) + 4) * S = 4 * ((m : ℚ) * S) + 4 * S := by ring
  rw [abs_le]
  constructor <;> linarith

/-- Some unscanned column has a finite distance. -/
theorem DInv.exists_fin {C : Cost n m} {D : Nat} {δ S E : ℚ} {s : St n m} (h : VInv C s)
    {τ : Fin n → Fin m} (hτ : Feasible C τ) {f : Fin n} (hf : ¬ Asg s f)
    {t : Dij n m} {μ : ℚ} (hd : DInv C D δ S E s f t μ) (hul : t.up = t.low) :
    ∃ (p : Nat) (j : Fin m) (x : ℚ), t.L[p]? = some j ∧ t.up ≤ p ∧ t.d j = fin x := by
  classical
  obtain ⟨i', j, hj, hCf, h2⟩ := hall_escape_of_inj h.inj hτ f hf
    (Finset.univ.filter fun j => s.v j = ninf ∨ ∃ p : Nat, t.L[p]? = some j ∧ p < t.up) (by
      intro j hj
      rcases (Finset.mem_filter.1 hj).2 with hn | ⟨p, hp, hpu⟩
      · exact h.ninf_asg hn
      · exact hd.asg p j hp hpu)
  have hj' : ¬ (s.v j = ninf ∨ ∃ p : Nat, t.L[p]? = some j ∧ p < t.up) :=
    fun hc => hj (Finset.mem_filter.2 ⟨Finset.mem_univ _, hc⟩)
  obtain ⟨p, hp⟩ := mem_of_perm hd.nd hd.len j
  have hpu : t.up ≤ p := by
    by_contra hc
    exact hj' (Or.inr ⟨p, hp, by omega⟩)
  have hvj : IsFin (s.v j) := (h.isV j).resolve_left fun hn => hj' (Or.inl hn)
  rcases h2 with rfl | ⟨j', hj1, hj2⟩
  · obtain ⟨y, hy, _⟩ := hd.init j ⟨hCf, hvj⟩
    exact ⟨p, j, y, hp, hpu, hy⟩
  · rcases (Finset.mem_filter.1 hj1).2 with hn | ⟨p', hp', hpu'⟩
    · obtain ⟨rank, hr⟩ := h.forced
      have := (hr j' i' hn hj2 j hCf).1
      exact absurd (Or.inl this) hj'
    · obtain ⟨y, hy, _⟩ := hd.relaxed p' j' i' hp' (by omega) hj2 j ⟨hCf, hvj⟩
      exact ⟨p, j, y, hp, hpu, hy⟩

/-- Result of the search: distances `d`, minimum `μ` and the unassigned column `e`. -/
structure DPost (C : Cost n m) (D : Nat) (δ E : ℚ) (s : St n m) (f : Fin n) (t : Dij n m)
    (μ : ℚ) (e : Fin m) : Prop where
  nd : t.L.Nodup
  len : t.L.length = m
  l1 : t.last1 ≤ t.low
  l1n : t.last1 < n
  dG : ∀ j x, t.d j = fin x → OnGrid D x
  mn : t.mn = fin μ
  mnG : OnGrid D μ
  ready : ∀ (p : Nat) j, t.L[p]? = some j → p < t.last1 →
    ∃ x, t.d j = fin x ∧ x ≤ μ + t.last1 * E
  cur : ∀ (p : Nat) j, t.L[p]? = some j → t.last1 ≤ p → p < t.low → t.d j = fin μ
  rest : ∀ (p : Nat) j y, t.L[p]? = some j → t.last1 ≤ p → t.d j = fin y → μ - E ≤ y
  asg : ∀ (p : Nat) j, t.L[p]? = some j → p < t.low → ∃ i, s.colsol j = some i
  relaxed : ∀ (p : Nat) j i, t.L[p]? = some j → p < t.last1 → s.colsol j = some i → ∀ j',
    FinAt C s.v i j' → ∃ y, t.d j' = fin y ∧
      ∀ x, t.d j = fin x → y ≤ x + redv C s.v i j' - redv C s.v i j + n * E
  init : ∀ j', FinAt C s.v f j' → ∃ y, t.d j' = fin y ∧ y ≤ redv C s.v f j' + δ
  pred : ∀ (p : Nat) j x, t.L[p]? = some j → p < t.low → t.d j = fin x →
    Reached C s f δ t.d t.L p (t.pred j) j x
  free : s.colsol e = none
  epred : Reached C s f δ t.d t.L t.low (t.pred e) e μ

theorem newMin_spec {A : Arith} {C : Cost n m} {D : Nat} {R K δ S ε E : ℚ}
    (hE : Env A C D R K δ S) {s : St n m} (h : MInv C D S ε s) (hE0 : 0 ≤ E)
    {τ : Fin n → Fin m} (hτ : Feasible C τ) {f : Fin n} (hf : ¬ Asg s f)
    {t : Dij n m} {μ : ℚ} (hd : DInv C D δ S E s f t μ) (hul : t.up = t.low) :
    ∃ t' eo, newMin s.colsol t = some (t', eo) ∧ t'.low = t.low ∧ ∃ μ',
      ((∃ e, eo = some e ∧ DPost C D δ E s f t' μ' e) ∨
       (eo = none ∧ DInv C D δ S E s f t' μ' ∧ t'.low < t'.up)) := by
  have hupn := hd.up_lt h.toVInv hf
  obtain ⟨pf, jf, xf, hpf, hupf, hxf⟩ := hd.exists_fin h.toVInv hτ hf hul
  have hpl : pf < m := by
    rw [← hd.len]; exact (List.getElem?_eq_some_iff.1 hpf).1
  have hupm : t.up < t.L.length := by rw [hd.len]; omega
  obtain ⟨j0, hj0⟩ : ∃ j0, t.L[t.up]? = some j0 := ⟨t.L[t.up], List.getElem?_eq_getElem hupm⟩
  obtain ⟨up', mn', L', e1, q1, q2, q3, q4, q5, q6, q7⟩ :=
    minScan_spec hd.dC t.low (m - (t.up + 1)) (t.up + 1) (t.up + 1) (t.d j0) t.L
      (by rw [hd.len]; omega) (by omega) (le_refl _) (hd.dC j0)
      (by
        intro p j hp h1 h2
        have : p = t.up := by omega
        subst this
        rw [hj0] at hp
        rw [Option.some.inj hp])
      (by intro p j _ h1 h2; omega)
  have hlen' : L'.length = m := by rw [q1.length_eq, hd.len]
  have hnd' : L'.Nodup := q1.nodup_iff.2 hd.nd
  -- the minimum is finite
  have hge : ∀ (p : Nat) j, L'[p]? = some j → t.low ≤ p → Le mn' (t.d j) := by
    intro p j hp h1
    by_cases h2 : p < up'
    · rw [q6 p j hp h1 h2]; exact Le.refl q5
    · exact q7 p j hp (by omega)
  obtain ⟨pf', hpf'⟩ := mem_of_perm hnd' hlen' jf
  have hpf'l : t.low ≤ pf' := by
    by_contra hc
    have hc : pf' < t.low := by omega
    rw [q2 pf' hc] at hpf'
    have := pos_inj hd.nd hpf hpf'
    omega
  obtain ⟨μ', hμ', _⟩ := hge pf' jf hpf' hpf'l xf hxf
  -- positions at or after `low` are the same columns
  have hback : ∀ (p : Nat) j, L'[p]? = some j → t.low ≤ p →
      ∃ p0 : Nat, t.L[p0]? = some j ∧ t.low ≤ p0 := by
    intro p j hp h1
    obtain ⟨p0, hp0⟩ := mem_of_perm hd.nd hd.len j
    refine ⟨p0, hp0, ?_⟩
    by_contra hc
    have hc : p0 < t.low := by omega
    rw [← q2 p0 hc] at hp0
    have := pos_inj hnd' hp0 hp
    omega
  have hlow : ∀ {p : Nat} {j}, L'[p]? = some j → p < t.low → t.L[p]? = some j := by
    intro p j hp h1; rw [← q2 p h1]; exact hp
  -- a column that attains the minimum
  obtain ⟨jm, hjm⟩ : ∃ jm, L'[t.low]? = some jm :=
    ⟨L'[t.low]'(by omega), List.getElem?_eq_getElem _⟩
  have hdjm : t.d jm = fin μ' := by rw [q6 t.low jm hjm (le_refl _) q3, hμ']
  have hμG : OnGrid D μ' := hd.dG jm μ' hdjm
  have hμB := hd.dist_bound hE h hdjm
  have hmono : 0 < t.up → μ - E ≤ μ' := by
    intro h0
    obtain ⟨p0, hp0, hp0l⟩ := hback t.low jm hjm (le_refl _)
    exact hd.rest h0 p0 jm μ' hp0 (by omega) hdjm
  have hready : ∀ (p : Nat) j, L'[p]? = some j → p < t.low →
      ∃ x, t.d j = fin x ∧ x ≤ μ' + t.low * E := by
    intro p j hp h1
    obtain ⟨x, hx, hle⟩ := hd.ready p j (hlow hp h1) (by omega)
    refine ⟨x, hx, ?_⟩
    have h2 := hmono (by omega)
    have h3 : t.last1 + 1 ≤ t.low := by have := hd.l1u (by omega); omega
    have h4 : ((t.last1 : ℚ) + 1) * E ≤ t.low * E :=
      mul_le_mul_of_nonneg_right (by exact_mod_cast h3) hE0
    linarith
  have hgeE : ∀ (p : Nat) j y, L'[p]? = some j → t.low ≤ p → t.d j = fin y → μ' - E ≤ y := by
    intro p j y hp h1 hy
    obtain ⟨a, ha, hle⟩ := hge p j hp h1 y hy
    rw [hμ'] at ha
    injection ha with ha
    linarith
  have hpred : ∀ (p : Nat) j x, L'[p]? = some j → t.d j = fin x →
      Reached C s f δ t.d L' (min p t.low) (t.pred j) j x := by
    intro p j x hp hx
    have hpp : ∃ p0 : Nat, t.L[p0]? = some j ∧ min p0 t.low = min p t.low := by
      by_cases h1 : p < t.low
      · exact ⟨p, hlow hp h1, rfl⟩
      · obtain ⟨p0, h2, h3⟩ := hback p j hp (by omega)
        exact ⟨p0, h2, by omega⟩
    obtain ⟨p0, h2, h3⟩ := hpp
    obtain ⟨h0, h4⟩ := hd.pred p0 j x h2 hx
    refine ⟨h0, ?_⟩
    rcases h4 with h4 | ⟨p', j1, x1, h4, h5, h6⟩
    · exact Or.inl h4
    · rw [h3] at h5
      exact Or.inr ⟨p', j1, x1, by rw [q2 p' (by omega)]; exact h4, h5, h6⟩
  have hasg : ∀ (p : Nat) j, L'[p]? = some j → p < t.low → ∃ i, s.colsol j = some i :=
    fun p j hp h1 => hd.asg p j (hlow hp h1) (by omega)
  unfold newMin
  rw [hj0]
  simp only [e1]
  rcases firstFree_spec s.colsol L' (up' - t.low) t.low (by rw [hlen']; rw [hd.len] at q4; omega)
    with ⟨e, p, h1, h2, h3, h4, h5⟩ | ⟨h1, h2⟩
  · rw [h1]
    simp only
    refine ⟨_, _, rfl, rfl, μ', Or.inl ⟨e, rfl, ?_⟩⟩
    have hde : t.d e = fin μ' := by rw [q6 p e h2 h3 (by omega), hμ']
    refine ⟨hnd', hlen', le_refl _, by simp only; omega, hd.dG, hμ', hμG, hready, ?_, hgeE, hasg,
      ?_, hd.init, ?_, h5, ?_⟩
    · intro p j hp h6 h7
      simp only at h6 h7
      omega
    · intro p j i hp h6 hc j' ha
      exact hd.relaxed p j i (hlow hp h6) h6 hc j' ha
    · intro p j x hp h6 hx
      have := hpred p j x hp hx
      have h6' : p < t.low := h6
      rwa [Nat.min_eq_left (by omega)] at this
    · have := hpred p e μ' h2 hde
      rwa [Nat.min_eq_right h3] at this
  · rw [h1]
    simp only
    refine ⟨_, _, rfl, rfl, μ', Or.inr ⟨rfl, ?_, q3⟩⟩
    have hlE : (0:ℚ) ≤ t.low * E := by positivity
    refine ⟨hnd', hlen', le_refl _, Nat.le_of_lt q3, by rw [hd.len] at q4; exact q4,
      fun _ => q3, hd.dC, hd.dG, hμ', hμG, hμB, ?_, ?_, ?_, ?_, ?_, hd.init, hpred⟩
    · intro p j hp h6
      by_cases h7 : p < t.low
      · exact hready p j hp h7
      · exact ⟨μ', by rw [← hμ']; exact q6 p j hp (by omega) h6, by simp only; linarith⟩
    · intro p j hp h6 h7
      rw [← hμ']
      exact q6 p j hp h6 h7
    · intro _ p j y hp h6 hy
      exact hgeE p j y hp (by simp only at h6; omega) hy
    · intro p j hp h6
      by_cases h7 : p < t.low
      · exact hasg p j hp h7
      · exact h2 p j hp (by omega) (by simp only at h6; omega)
    · intro p j i hp h6 hc j' ha
      exact hd.relaxed p j i (hlow hp h6) h6 hc j' ha

/-! ## Relaxation -/

/-- Invariant of the relaxation loop at position `k`; `b` is the reduced cost of the scanned
column in row `i`. -/
structure RInv (C : Cost n m) (D : Nat) (δ E : ℚ) (s : St n m) (t : Dij n m) (μ b : ℚ) (i : Fin n)
    (r : RelaxSt n m) (k : Nat) : Prop where
  perm : r.L.Perm t.L
  pre : ∀ p, p < t.up → r.L[p]? = t.L[p]?
  uu : t.up ≤ r.up
  uk : r.up ≤ k
  dC : ∀ j, IsC (r.d j)
  dG : ∀ j x, r.d j = fin x → OnGrid D x
  old : ∀ (p : Nat) j, t.L[p]? = some j → p < t.up → r.d j = t.d j ∧ r.pred j = t.pred j
  new : ∀ (p : Nat) j, r.L[p]? = some j → t.up ≤ p → p < r.up →
    r.d j = fin μ ∧ ∃ i', s.colsol j = some i'
  ge : ∀ (p : Nat) j y, r.L[p]? = some j → r.up ≤ p → r.d j = fin y → μ - E ≤ y
  rel : ∀ (p : Nat) j, r.L[p]? = some j → t.up ≤ p → p < k → FinAt C s.v i j →
    ∃ y, r.d j = fin y ∧ y ≤ redv C s.v i j - b + μ + 4 * δ
  le : ∀ j, Le (r.d j) (t.d j)
  src : ∀ j, (r.d j = t.d j ∧ r.pred j = t.pred j) ∨
    (r.pred j = i ∧ FinAt C s.v i j ∧ ∃ x, r.d j = fin x ∧
      |x - (redv C s.v i j - b + μ)| ≤ 4 * δ)

theorem relax_spec {A : Arith} {C : Cost n m} {D : Nat} {δ E : ℚ} {s : St n m}
    {t : Dij n m} {μ b η : ℚ} (hlen : t.L.length = m) (hnd : t.L.Nodup) {i : Fin n}
    (hW : ∀ j, (A.sub (A.sub (C i j) (s.v j)) (fin η) = pinf ∧ ¬ FinAt C s.v i j) ∨
      (FinAt C s.v i j ∧ ∃ x2, A.sub (A.sub (C i j) (s.v j)) (fin η) = fin x2 ∧ OnGrid D x2 ∧
        |x2 - (redv C s.v i j - b + μ)| ≤ 4 * δ ∧ μ - E ≤ x2)) :
    ∀ (rem k : Nat) (r : RelaxSt n m), k + rem = m → r.eop = none →
      RInv C D δ E s t μ b i r k →
      ∃ r', relax A (C i) s.v (fin η) (fin μ) s.colsol i rem k r = some r' ∧
        ((r'.eop = none ∧ RInv C D δ E s t μ b i r' m) ∨
         (∃ e r0 k' pe, r'.eop = some e ∧ RInv C D δ E s t μ b i r0 k' ∧ r'.d = r0.d ∧
            r'.L = r0.L ∧ r'.up = r0.up ∧ r'.pred = Function.update r0.pred e i ∧
            s.colsol e = none ∧ r0.L[pe]? = some e ∧ r0.up ≤ pe ∧ FinAt C s.v i e ∧
            |μ - (redv C s.v i e - b + μ)| ≤ 4 * δ)) := by
  have hWC : ∀ j, IsC (A.sub (A.sub (C i j) (s.v j)) (fin η)) := by
    intro j
    rcases hW j with ⟨e, _⟩ | ⟨_, x2, e, _⟩
    · exact Or.inl e
    · exact Or.inr ⟨x2, e⟩
  intro rem
  induction rem with
  | zero =>
    intro k r hk he hr
    refine ⟨r, rfl, Or.inl ⟨he, ?_⟩⟩
    have : k = m := by omega
    subst this
    exact hr
  | succ rem ih =>
    intro k r hk he hr
    have hrl : r.L.length = m := by rw [hr.perm.length_eq, hlen]
    have hrnd : r.L.Nodup := hr.perm.nodup_iff.2 hnd
    have hkl : k < r.L.length := by omega
    obtain ⟨j, hj⟩ : ∃ j, r.L[k]? = some j := ⟨r.L[k], List.getElem?_eq_getElem hkl⟩
    simp only [relax, hj]
    have huk := hr.uk
    have huu := hr.uu
    by_cases hlt : (A.sub (A.sub (C i j) (s.v j)) (fin η)).lt (r.d j) = true
    · rw [if_pos hlt]
      -- the new distance is finite
      have hnle := (lt_iff_not_le (hWC j) (hr.dC j)).1 hlt
      obtain ⟨hat, x2, hx2, hx2G, hx2e, hx2ge⟩ := (hW j).resolve_left (by
        rintro ⟨e, _⟩
        rw [e] at hnle
        exact hnle (Le.pinf _))
      rw [hx2] at hnle ⊢
      have hdle : Le (fin x2) (r.d j) :=
        (Le.total (Or.inr ⟨_, rfl⟩) (hr.dC j)).resolve_right hnle
      -- column `j` is behind the ready ones
      have hnot : ∀ p : Nat, t.L[p]? = some j → ¬ p < t.up := by
        intro p hp hpu
        rw [← hr.pre p hpu] at hp
        have := pos_inj hrnd hp hj
        omega
      -- the columns whose distance changes
      have hdC' : ∀ j', IsC (Function.update r.d j (fin x2) j') := by
        intro j'
        by_cases hjj : j' = j
        · subst hjj; rw [Function.update_self]; exact Or.inr ⟨_, rfl⟩
        · rw [Function.update_of_ne hjj]; exact hr.dC j'
      have hdG' : ∀ j' x, Function.update r.d j (fin x2) j' = fin x → OnGrid D x := by
        intro j' x hx
        by_cases hjj : j' = j
        · subst hjj
          rw [Function.update_self] at hx
          injection hx with hx
          rw [← hx]; exact hx2G
        · rw [Function.update_of_ne hjj] at hx; exact hr.dG j' x hx
      have hle' : ∀ j', Le (Function.update r.d j (fin x2) j') (t.d j') := by
        intro j'
        by_cases hjj : j' = j
        · subst hjj; rw [Function.update_self]; exact hdle.trans (hr.le j')
        · rw [Function.update_of_ne hjj]; exact hr.le j'
      have hold' : ∀ (p : Nat) j', t.L[p]? = some j' → p < t.up →
          Function.update r.d j (fin x2) j' = t.d j' ∧
          Function.update r.pred j i j' = t.pred j' := by
        intro p j' hp hpu
        have hjj : j' ≠ j := by rintro rfl; exact hnot p hp hpu
        rw [Function.update_of_ne hjj, Function.update_of_ne hjj]
        exact hr.old p j' hp hpu
      have hsrc' : ∀ j', (Function.update r.d j (fin x2) j' = t.d j' ∧
          Function.update r.pred j i j' = t.pred j') ∨
          (Function.update r.pred j i j' = i ∧ FinAt C s.v i j' ∧
            ∃ x, Function.update r.d j (fin x2) j' = fin x ∧
              |x - (redv C s.v i j' - b + μ)| ≤ 4 * δ) := by
        intro j'
        by_cases hjj : j' = j
        · subst hjj
          rw [Function.update_self, Function.update_self]
          exact Or.inr ⟨rfl, hat, x2, rfl, hx2e⟩
        · rw [Function.update_of_ne hjj, Function.update_of_ne hjj]
          exact hr.src j'
      have hrelj : ∃ y, Function.update r.d j (fin x2) j = fin y ∧
          y ≤ redv C s.v i j - b + μ + 4 * δ := by
        rw [Function.update_self]
        refine ⟨x2, rfl, ?_⟩
        have := (abs_le.1 hx2e).2
        linarith
      have hgej : ∀ y, Function.update r.d j (fin x2) j = fin y → μ - E ≤ y := by
        intro y hy
        rw [Function.update_self] at hy
        injection hy with hy
        rw [← hy]; exact hx2ge
      rw [feq_fin_fin]
      by_cases heq : x2 = μ
      · rw [if_pos (decide_eq_true heq)]
        cases hcs : s.colsol j with
        | none =>
          simp only
          exact ⟨_, rfl, Or.inr ⟨j, r, k, k, rfl, hr, rfl, rfl, rfl, rfl, hcs, hj, hr.uk, hat,
            by rw [heq] at hx2e; exact hx2e⟩⟩
        | some i' =>
          simp only
          obtain ⟨x, hx⟩ : ∃ x, r.L[r.up]? = some x :=
            ⟨r.L[r.up]'(by have := hr.uk; omega), List.getElem?_eq_getElem _⟩
          rw [hx]
          simp only
          obtain ⟨s1, s2, s3, s4, s5⟩ := swap_spec hj hx
          refine ih (k + 1) _ (by omega) he ?_
          refine ⟨s2.trans hr.perm, ?_, ?_, ?_, hdC', hdG', hold', ?_, ?_, ?_, hle', hsrc'⟩
          · intro p hp
            simp only
            rw [s5 p (by omega) (by omega), hr.pre p hp]
          · simp only; omega
          · simp only; omega
          · intro p j' hp h1 h2
            simp only at hp h2 ⊢
            by_cases hpu : p = r.up
            · subst hpu
              rw [s3] at hp
              obtain rfl := Option.some.inj hp
              rw [Function.update_self, heq]
              exact ⟨rfl, i', hcs⟩
            · rw [s5 p (by omega) hpu] at hp
              have hjj : j' ≠ j := by
                rintro rfl
                have := pos_inj hrnd hp hj
                omega
              rw [Function.update_of_ne hjj]
              exact hr.new p j' hp h1 (by omega)
          · intro p j' y hp h1 hy
            simp only at hp h1 hy
            by_cases hjj : j' = j
            · subst hjj; exact hgej y hy
            · rw [Function.update_of_ne hjj] at hy
              by_cases hpk : p = k
              · subst hpk
                rw [s4] at hp
                obtain rfl := Option.some.inj hp
                exact hr.ge r.up _ y hx (le_refl _) hy
              · rw [s5 p hpk (by omega)] at hp
                exact hr.ge p j' y hp (by omega) hy
          · intro p j' hp h1 h2 ha'
            simp only at hp ⊢
            by_cases hjj : j' = j
            · subst hjj; exact hrelj
            · rw [Function.update_of_ne hjj]
              by_cases hpk : p = k
              · subst hpk
                rw [s4] at hp
                obtain rfl := Option.some.inj hp
                have hne : r.up ≠ p := by
                  intro e'
                  rw [e', hj] at hx
                  exact hjj (Option.some.inj hx).symm
                exact hr.rel r.up _ hx huu (by omega) ha'
              · by_cases hpu : p = r.up
                · subst hpu
                  rw [s3] at hp
                  exact absurd (Option.some.inj hp).symm hjj
                · rw [s5 p hpk hpu] at hp
                  exact hr.rel p j' hp h1 (by omega) ha'
      · rw [if_neg (by simpa using heq)]
        refine ih (k + 1) _ (by omega) he ?_
        refine ⟨hr.perm, hr.pre, huu, by simp only; omega, hdC', hdG', hold', ?_, ?_, ?_, hle',
          hsrc'⟩
        · intro p j' hp h1 h2
          simp only at hp h2 ⊢
          have hjj : j' ≠ j := by
            rintro rfl
            have := pos_inj hrnd hp hj
            omega
          rw [Function.update_of_ne hjj]
          exact hr.new p j' hp h1 h2
        · intro p j' y hp h1 hy
          simp only at hp h1 hy
          by_cases hjj : j' = j
          · subst hjj; exact hgej y hy
          · rw [Function.update_of_ne hjj] at hy
            exact hr.ge p j' y hp h1 hy
        · intro p j' hp h1 h2 ha'
          simp only at hp ⊢
          by_cases hjj : j' = j
          · subst hjj; exact hrelj
          · rw [Function.update_of_ne hjj]
            have hpk : p ≠ k := by
              rintro rfl
              rw [hj] at hp
              exact hjj (Option.some.inj hp).symm
            exact hr.rel p j' hp h1 (by omega) ha'
    · rw [if_neg hlt]
      refine ih (k + 1) r (by omega) he ?_
      refine ⟨hr.perm, hr.pre, hr.uu, by omega, hr.dC, hr.dG, hr.old, hr.new, hr.ge, ?_, hr.le,
        hr.src⟩
      intro p j' hp h1 h2 ha'
      by_cases hpk : p = k
      · subst hpk
        rw [hj] at hp
        obtain rfl := Option.some.inj hp
        have hle : Le (r.d j) (A.sub (A.sub (C i j) (s.v j)) (fin η)) := by
          by_contra hc
          exact hlt ((lt_iff_not_le (hWC j) (hr.dC j)).2 hc)
        obtain ⟨_, x2, hx2, _, hx2e, _⟩ := (hW j).resolve_left (fun hc => hc.2 ha')
        obtain ⟨y, hy, hle⟩ := hle _ hx2
        have := (abs_le.1 hx2e).2
        exact ⟨y, hy, by linarith⟩
      · exact hr.rel p j' hp h1 (by omega) ha'

theorem scanCol_spec {A : Arith} {C : Cost n m} {D : Nat} {R K δ S ε E : ℚ}
    (hE : Env A C D R K δ S) {s : St n m} (h : MInv C D S ε s) (hE0 : E = ε + 4 * δ)
    (hε : 0 ≤ ε) {f : Fin n} (hf : ¬ Asg s f)
    {t : Dij n m} {μ : ℚ} (hd : DInv C D δ S E s f t μ) (hlu : t.low < t.up) :
    ∃ t' eo, scanCol A C s.v s.colsol t = some (t', eo) ∧ t'.low = t.low + 1 ∧
      ((∃ e, eo = some e ∧ DPost C D δ E s f t' μ e) ∨
        (eo = none ∧ DInv C D δ S E s f t' μ)) := by
  have hδ := hE.rounds.nn
  have hEn : 0 ≤ E := by linarith
  obtain ⟨g1, g2⟩ := hE.ranges
  have hS := hE.S_nonneg
  have hSe := hE.hS
  have hK := hE.scaled.nn
  have hum := hd.um
  have hl1 := hd.l1
  have hupn := hd.up_lt h.toVInv hf
  have hl1u := hd.l1u (by omega)
  obtain ⟨j1, hj1⟩ : ∃ j1, t.L[t.low]? = some j1 :=
    ⟨t.L[t.low]'(by rw [hd.len]; omega), List.getElem?_eq_getElem _⟩
  obtain ⟨i, hi⟩ := hd.asg t.low j1 hj1 hlu
  have hdj1 : t.d j1 = fin μ := hd.cur t.low j1 hj1 hl1 hlu
  have hv1 : IsFin (s.v j1) := (hd.pred t.low j1 μ hj1 hdj1).1.2
  have hat1 : FinAt C s.v i j1 := ⟨h.finC j1 i hi, hv1⟩
  have htight := h.tight j1 i hi hv1
  -- the offset `h`
  obtain ⟨_, r1, hr1, hr1e, hr1G, hr1B⟩ := (h.red_cases hE i j1).resolve_left (fun hc => hc.2 hat1)
  have hμB := abs_le.1 hd.mnB
  obtain ⟨η, hη, hηe, hηG⟩ := hE.rounds.sub r1 μ hr1G hd.mnG (by linarith)
    (hd.mnB.trans (by linarith))
  have hr1B' := abs_le.1 hr1B
  have hr1e' := abs_le.1 hr1e
  have hηe' := abs_le.1 hηe
  have hηB : |η| ≤ R := by rw [abs_le]; constructor <;> linarith
  have hW : ∀ j, (A.sub (A.sub (C i j) (s.v j)) (fin η) = pinf ∧ ¬ FinAt C s.v i j) ∨
      (FinAt C s.v i j ∧ ∃ x2, A.sub (A.sub (C i j) (s.v j)) (fin η) = fin x2 ∧ OnGrid D x2 ∧
        |x2 - (redv C s.v i j - redv C s.v i j1 + μ)| ≤ 4 * δ ∧ μ - E ≤ x2) := by
    intro j
    rcases h.red_cases hE i j with ⟨e, hn⟩ | ⟨hat, r, e, h1, h2, h3⟩
    · left; rw [e]; exact ⟨rfl, hn⟩
    · right
      refine ⟨hat, ?_⟩
      obtain ⟨x2, hx2, hx2e, hx2G⟩ := hE.rounds.sub r η h2 hηG (by linarith) hηB
      have htj := htight j hat
      rw [abs_le] at h1 hx2e
      refine ⟨x2, by rw [e, Arith.sub_fin_fin]; exact hx2, hx2G, ?_, ?_⟩
      · rw [abs_le]
        constructor <;> linarith
      · linarith
  obtain ⟨b, hb⟩ : ∃ b, b = redv C s.v i j1 := ⟨_, rfl⟩
  rw [← hb] at hW htight
  have hh : A.sub (A.sub (C i j1) (s.v j1)) (fin μ) = fin η := by
    rw [hr1, Arith.sub_fin_fin]; exact hη
  have hr0 : RInv C D δ E s t μ b i ⟨t.d, t.pred, t.L, t.up, none⟩ t.up := by
    refine ⟨List.Perm.refl _, fun _ _ => rfl, le_refl _, le_refl _, hd.dC, hd.dG,
      fun _ _ _ _ => ⟨rfl, rfl⟩, ?_, ?_, ?_, ?_, fun j => Or.inl ⟨rfl, rfl⟩⟩
    · intro p j _ h1 h2; simp only at h2; omega
    · intro p j y hp h1 hy; exact hd.rest (by omega) p j y hp h1 hy
    · intro p j _ h1 h2; omega
    · intro j; exact Le.refl (hd.dC j)
  obtain ⟨r, hrun, hres⟩ := relax_spec hd.len hd.nd hW (m - t.up) t.up _
    (by omega) rfl hr0
  unfold scanCol
  rw [hj1]
  simp only [hi, hh, hd.mn, hrun]
  -- facts common to both outcomes, for a state satisfying the relaxation invariant
  have common : ∀ (r : RelaxSt n m) (k : Nat), RInv C D δ E s t μ b i r k →
      r.L.Nodup ∧ r.L.length = m ∧
      (∀ (p : Nat) j, r.L[p]? = some j → p < t.up → t.L[p]? = some j ∧ r.d j = t.d j) ∧
      (∀ j', FinAt C s.v f j' → ∃ y, r.d j' = fin y ∧ y ≤ redv C s.v f j' + δ) ∧
      (∀ (p : Nat) j i, r.L[p]? = some j → p < t.low → s.colsol j = some i → ∀ j',
        FinAt C s.v i j' → ∃ y, r.d j' = fin y ∧
          ∀ x, r.d j = fin x → y ≤ x + redv C s.v i j' - redv C s.v i j + n * E) ∧
      (∀ (p : Nat) j x, r.L[p]? = some j → r.d j = fin x →
        Reached C s f δ r.d r.L (min p (t.low + 1)) (r.pred j) j x) := by
    intro r k hr
    have hrl : r.L.length = m := by rw [hr.perm.length_eq, hd.len]
    have hrnd : r.L.Nodup := hr.perm.nodup_iff.2 hd.nd
    have hpre : ∀ (p : Nat) j, r.L[p]? = some j → p < t.up →
        t.L[p]? = some j ∧ r.d j = t.d j := by
      intro p j hp hpu
      have hp' : t.L[p]? = some j := by rw [← hr.pre p hpu]; exact hp
      exact ⟨hp', (hr.old p j hp' hpu).1⟩
    have hback : ∀ (p : Nat) j, r.L[p]? = some j → t.up ≤ p →
        ∃ p0 : Nat, t.L[p0]? = some j ∧ t.up ≤ p0 := by
      intro p j hp h1
      obtain ⟨p0, hp0⟩ := mem_of_perm hd.nd hd.len j
      refine ⟨p0, hp0, ?_⟩
      by_contra hc
      have hc : p0 < t.up := by omega
      rw [← hr.pre p0 hc] at hp0
      have := pos_inj hrnd hp0 hp
      omega
    refine ⟨hrnd, hrl, hpre, ?_, ?_, ?_⟩
    · intro j' ha
      obtain ⟨y, hy, hle⟩ := hd.init j' ha
      obtain ⟨y', hy', hle'⟩ := hr.le j' y hy
      exact ⟨y', hy', hle'.trans hle⟩
    · intro p j i' hp h1 hc j' ha
      obtain ⟨hp', hdj⟩ := hpre p j hp (by omega)
      obtain ⟨y, hy, hle⟩ := hd.relaxed p j i' hp' h1 hc j' ha
      obtain ⟨y', hy', hle'⟩ := hr.le j' y hy
      refine ⟨y', hy', ?_⟩
      intro x hx
      rw [hdj] at hx
      exact hle'.trans (hle x hx)
    · intro p j x hp hx
      -- Reached in the old state gives Reached in the new one
      have lift : ∀ (p0 : Nat), t.L[p0]? = some j → min p0 t.low ≤ min p (t.low + 1) →
          t.d j = fin x → r.pred j = t.pred j →
          Reached C s f δ r.d r.L (min p (t.low + 1)) (r.pred j) j x := by
        intro p0 hp0 hle hdx hpr
        rw [hpr]
        obtain ⟨h0, h4⟩ := hd.pred p0 j x hp0 hdx
        refine ⟨h0, ?_⟩
        rcases h4 with h4 | ⟨p', j2, x1, h4, h5, h6, h7, h8⟩
        · exact Or.inl h4
        · have hp'u : p' < t.up := by omega
          refine Or.inr ⟨p', j2, x1, by rw [hr.pre p' hp'u]; exact h4, by omega, h6, ?_, h8⟩
          rw [(hr.old p' j2 h4 hp'u).1]
          exact h7
      by_cases hpu : p < t.up
      · obtain ⟨hp', hdj⟩ := hpre p j hp hpu
        exact lift p hp' (by omega) (by rw [← hdj]; exact hx) (hr.old p j hp' hpu).2
      · obtain ⟨p0, hp0, hp0u⟩ := hback p j hp (by omega)
        rcases hr.src j with ⟨e1, e2⟩ | ⟨e1, hat, x', e2, e3⟩
        · exact lift p0 hp0 (by omega) (by rw [← e1]; exact hx) e2
        · rw [e1]
          refine ⟨hat, Or.inr ⟨t.low, j1, μ, by rw [hr.pre t.low hlu]; exact hj1,
            by omega, hi, ?_, hat1, ?_⟩⟩
          · rw [(hr.old t.low j1 hj1 hlu).1]; exact hdj1
          · rw [hx] at e2
            injection e2 with e2
            rw [← hb, e2]
            have : x' - (μ + redv C s.v i j - b) = x' - (redv C s.v i j - b + μ) := by ring
            rw [this]; exact e3
  have hl1E : ((t.last1 : ℚ) + 1) * E ≤ n * E :=
    mul_le_mul_of_nonneg_right (by exact_mod_cast (by omega : t.last1 + 1 ≤ n)) hEn
  have hl1E0 : (0:ℚ) ≤ t.last1 * E := by positivity
  rcases hres with ⟨he, hr⟩ |
    ⟨e, r0, k', pe, he, hr, hd', hL', hup', hpr', hfree, hpe, hpeu, hate, hre⟩
  · -- no unassigned column found
    obtain ⟨k1, k2, k3, k5, k6, k7⟩ := common r m hr
    rw [he]
    refine ⟨_, _, rfl, rfl, Or.inr ⟨rfl, ?_⟩⟩
    have huu := hr.uu
    refine ⟨k1, k2, by simp only; omega, by simp only; omega, hr.uk, by simp only; omega, hr.dC,
      hr.dG, rfl, hd.mnG, hd.mnB, ?_, ?_, ?_, ?_, ?_, k5, k7⟩
    · intro p j hp h1
      simp only at hp h1 ⊢
      by_cases h2 : p < t.up
      · obtain ⟨h3, h4⟩ := k3 p j hp h2
        rw [h4]; exact hd.ready p j h3 h2
      · exact ⟨μ, (hr.new p j hp (by omega) h1).1, by linarith⟩
    · intro p j hp h0 h1
      simp only at hp h1 h0 ⊢
      by_cases h2 : p < t.up
      · obtain ⟨h3, h4⟩ := k3 p j hp h2
        rw [h4]; exact hd.cur p j h3 h0 h2
      · exact (hr.new p j hp (by omega) h1).1
    · intro _ p j y hp h1 hy
      exact hr.ge p j y hp h1 hy
    · intro p j hp h1
      simp only at hp h1
      by_cases h2 : p < t.up
      · exact hd.asg p j (k3 p j hp h2).1 h2
      · exact (hr.new p j hp (by omega) h1).2
    · intro p j i' hp h1 hc j' ha
      simp only at hp h1 ⊢
      by_cases h2 : p < t.low
      · exact k6 p j i' hp h2 hc j' ha
      · have hpl : p = t.low := by omega
        subst hpl
        have hp1 := (k3 _ j hp hlu).1
        rw [hj1] at hp1
        obtain rfl := Option.some.inj hp1
        rw [hi] at hc
        obtain rfl := Option.some.inj hc
        obtain ⟨p', hp'⟩ := mem_of_perm k1 k2 j'
        have hba := htight j' ha
        have hrd : r.d j1 = fin μ := by rw [(k3 _ j1 hp hlu).2]; exact hdj1
        by_cases h3 : p' < t.up
        · obtain ⟨h4, h5⟩ := k3 p' j' hp' h3
          obtain ⟨y, hy, hle⟩ := hd.ready p' j' h4 h3
          refine ⟨y, by rw [h5]; exact hy, ?_⟩
          intro x hx
          rw [hrd] at hx; injection hx with hx
          rw [← hb]
          linarith
        · have hp'm : p' < m := by
            rw [← k2]; exact (List.getElem?_eq_some_iff.1 hp').1
          obtain ⟨y, hy, hle⟩ := hr.rel p' j' hp' (by omega) hp'm ha
          refine ⟨y, hy, ?_⟩
          intro x hx
          rw [hrd] at hx; injection hx with hx
          rw [← hb]
          linarith
  · -- an unassigned column was found
    obtain ⟨k1, k2, k3, k5, k6, k7⟩ := common r0 k' hr
    rw [he]
    have huu := hr.uu
    have hpred_ne : ∀ (p : Nat) j, r0.L[p]? = some j → p < t.up →
        r.pred j = r0.pred j := by
      intro p j hp h1
      rw [hpr', Function.update_of_ne]
      rintro rfl
      have := pos_inj k1 hp hpe
      omega
    refine ⟨_, _, rfl, rfl, Or.inl ⟨e, rfl, ?_⟩⟩
    refine ⟨by simp only; rw [hL']; exact k1, by simp only; rw [hL']; exact k2,
      by simp only; omega, by simp only; omega, ?_, rfl, hd.mnG, ?_, ?_, ?_, ?_, ?_, ?_, ?_, hfree,
      ?_⟩
    · intro j x hx; simp only at hx; rw [hd'] at hx; exact hr.dG j x hx
    · intro p j hp h1
      simp only at hp h1 ⊢
      rw [hL'] at hp
      obtain ⟨h3, h4⟩ := k3 p j hp (by omega)
      rw [hd', h4]; exact hd.ready p j h3 (by omega)
    · intro p j hp h0 h1
      simp only at hp h0 h1 ⊢
      rw [hL'] at hp
      obtain ⟨h3, h4⟩ := k3 p j hp (by omega)
      rw [hd', h4]; exact hd.cur p j h3 h0 (by omega)
    · intro p j y hp h1 hy
      simp only at hp h1 hy
      rw [hL'] at hp
      rw [hd'] at hy
      by_cases h2 : p < t.up
      · obtain ⟨h3, h4⟩ := k3 p j hp h2
        rw [h4, hd.cur p j h3 h1 h2] at hy
        injection hy with hy
        linarith
      · by_cases h5 : p < r0.up
        · rw [(hr.new p j hp (by omega) h5).1] at hy
          injection hy with hy
          linarith
        · exact hr.ge p j y hp (by omega) hy
    · intro p j hp h1
      simp only at hp h1
      rw [hL'] at hp
      exact hd.asg p j (k3 p j hp (by omega)).1 (by omega)
    · intro p j i' hp h1 hc j' ha
      simp only at hp h1 ⊢
      rw [hL'] at hp
      rw [hd']
      exact k6 p j i' hp (by omega) hc j' ha
    · simp only; rw [hd']; exact k5
    · intro p j x hp h1 hx
      simp only at hp h1 hx ⊢
      rw [hL'] at hp
      rw [hd'] at hx ⊢
      rw [hL', hpred_ne p j hp (by omega)]
      have := k7 p j x hp hx
      rwa [Nat.min_eq_left (by omega)] at this
    · simp only
      rw [hd', hL', hpr', Function.update_self]
      refine ⟨hate, Or.inr ⟨t.low, j1, μ, by rw [hr.pre t.low hlu]; exact hj1,
        by omega, hi, ?_, hat1, ?_⟩⟩
      · rw [(hr.old t.low j1 hj1 hlu).1]; exact hdj1
      · rw [← hb]
        have : μ - (μ + redv C s.v i e - b) = μ - (redv C s.v i e - b + μ) := by ring
        rw [this]; exact hre

theorem dijkstra_spec {A : Arith} {C : Cost n m} {D : Nat} {R K δ S ε E : ℚ}
    (hE : Env A C D R K δ S) {s : St n m} (h : MInv C D S ε s) (hE0 : E = ε + 4 * δ)
    (hε : 0 ≤ ε)
    {τ : Fin n → Fin m} (hτ : Feasible C τ) {f : Fin n} (hf : ¬ Asg s f) :
    ∀ (M : Nat) (t : Dij n m) (μ : ℚ), m - t.low = M → DInv C D δ S E s f t μ →
      ∃ t' e μ', (∀ fuel, M < fuel → dijkstra A C s.v s.colsol fuel t = some (t', e)) ∧
        DPost C D δ E s f t' μ' e := by
  have hEn : 0 ≤ E := by have := hE.rounds.nn; linarith
  intro M
  induction M with
  | zero =>
    intro t μ hM hd
    -- impossible: all columns are scanned
    exfalso
    have h1 := hd.lu
    have h2 := hd.um
    obtain ⟨p, j, x, hp, hup, _⟩ := hd.exists_fin h.toVInv hτ hf (by omega)
    have : p < t.L.length := (List.getElem?_eq_some_iff.1 hp).1
    rw [hd.len] at this
    omega
  | succ M ih =>
    intro t μ hM hd
    by_cases hul : t.up = t.low
    · obtain ⟨t1, eo, e1, hl1, μ1, hres⟩ := newMin_spec hE h hEn hτ hf hd hul
      rcases hres with ⟨e, rfl, hpost⟩ | ⟨rfl, hd1, hlt⟩
      · refine ⟨t1, e, μ1, ?_, hpost⟩
        intro fuel hfu
        obtain ⟨f', rfl⟩ : ∃ f', fuel = f' + 1 := ⟨fuel - 1, by omega⟩
        simp only [dijkstra, if_pos hul, e1]
      · obtain ⟨t2, eo, e2, hl2, hres⟩ := scanCol_spec hE h hE0 hε hf hd1 hlt
        rcases hres with ⟨e, rfl, hpost⟩ | ⟨rfl, hd2⟩
        · refine ⟨t2, e, μ1, ?_, hpost⟩
          intro fuel hfu
          obtain ⟨f', rfl⟩ : ∃ f', fuel = f' + 1 := ⟨fuel - 1, by omega⟩
          simp only [dijkstra, if_pos hul, e1, e2]
        · obtain ⟨t3, e, μ3, hrun, hpost⟩ := ih t2 μ1 (by omega) hd2
          refine ⟨t3, e, μ3, ?_, hpost⟩
          intro fuel hfu
          obtain ⟨f', rfl⟩ : ∃ f', fuel = f' + 1 := ⟨fuel - 1, by omega⟩
          simp only [dijkstra, if_pos hul, e1, e2]
          exact hrun f' (by omega)
    · have hlt : t.low < t.up := by have := hd.lu; omega
      obtain ⟨t2, eo, e2, hl2, hres⟩ := scanCol_spec hE h hE0 hε hf hd hlt
      rcases hres with ⟨e, rfl, hpost⟩ | ⟨rfl, hd2⟩
      · refine ⟨t2, e, μ, ?_, hpost⟩
        intro fuel hfu
        obtain ⟨f', rfl⟩ : ∃ f', fuel = f' + 1 := ⟨fuel - 1, by omega⟩
        simp only [dijkstra, if_neg hul, e2]
      · obtain ⟨t3, e, μ3, hrun, hpost⟩ := ih t2 μ (by omega) hd2
        refine ⟨t3, e, μ3, ?_, hpost⟩
        intro fuel hfu
        obtain ⟨f', rfl⟩ : ∃ f', fuel = f' + 1 := ⟨fuel - 1, by omega⟩
        simp only [dijkstra, if_neg hul, e2]
        exact hrun f' (by omega)

/-- The initial state of the search satisfies the invariant. -/
theorem dInv_init {A : Arith} {C : Cost n m} {D : Nat} {R K δ S ε E : ℚ}
    (hE : Env A C D R K δ S) {s : St n m} (h : MInv C D S ε s) (f : Fin n) :
    DInv C D δ S E s f
      ⟨fun j => A.sub (C f j) (s.v j), fun _ => f, List.finRange m, 0, 0, 0, fin 0⟩ 0 := by
  obtain ⟨g1, g2⟩ := hE.ranges
  have hS := hE.S_nonneg
  refine ⟨List.nodup_finRange m, List.length_finRange, le_refl _, le_refl _, Nat.zero_le _,
    fun h1 => absurd h1 (Nat.lt_irrefl _), ?_, ?_, rfl, ⟨0, by simp⟩, ?_, ?_, ?_, ?_, ?_, ?_, ?_,
    ?_⟩
  · intro j
    rcases h.red_cases hE f j with ⟨e, _⟩ | ⟨_, r, e, _⟩
    · exact Or.inl e
    · exact Or.inr ⟨r, e⟩
  · intro j x hx
    simp only at hx
    rcases h.red_cases hE f j with ⟨e, _⟩ | ⟨_, r, e, _, h2, _⟩
    · rw [e] at hx; cases hx
    · rw [e] at hx; injection hx with hx; rw [← hx]; exact h2
  · rw [abs_zero]; linarith
  · intro p j _ h1; exact absurd h1 (Nat.not_lt_zero _)
  · intro p j _ _ h1; exact absurd h1 (Nat.not_lt_zero _)
  · intro h1; exact absurd h1 (Nat.not_lt_zero _)
  · intro p j _ h1; exact absurd h1 (Nat.not_lt_zero _)
  · intro p j i _ h1; exact absurd h1 (Nat.not_lt_zero _)
  · intro j' ha
    obtain ⟨_, r, e, h1, _⟩ := (h.red_cases hE f j').resolve_left (fun hc => hc.2 ha)
    exact ⟨r, e, by have := (abs_le.1 h1).2; linarith⟩
  · intro p j x _ hx
    simp only at hx
    rcases h.red_cases hE f j with ⟨e, _⟩ | ⟨hat, r, e, h1, _⟩
    · rw [e] at hx; cases hx
    · rw [e] at hx; injection hx with hx
      exact ⟨hat, Or.inl ⟨rfl, by rw [← hx]; exact h1⟩⟩

end Verif.LapF
