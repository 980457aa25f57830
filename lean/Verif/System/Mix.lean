import Verif.System.Model
import Verif.GM.Props
import Verif.Kalman.Props

/-! # What the operations of the tracker keep of a mixture -/

namespace Verif.System

open Matrix
open Verif.GM (Mix SortOk)

/-- Weights are not negative, covariances positive definite. -/
def GoodC (c : List Cmp) : Prop := ∀ g ∈ c, 0 ≤ g.w ∧ g.x.2.PosDef

/-- A density as it should be: at most `mx` components, and if there are any their weights add up to
one. -/
structure Good (mx : Nat) (p : Pdf) : Prop where
  cmp : GoodC p.mix.c
  len : p.mix.c.length ≤ mx
  sum : p.mix.c = [] ∨ (p.mix.c.map GM.Cmp.w).sum = 1

/-- Changes to the components that keep weights and covariances. -/
theorem good_map {mx : Nat} {p q : Pdf} (h : Good mx p) (f : Cmp → Cmp)
    (hw : ∀ g, (f g).w = g.w) (hP : ∀ g, 0 ≤ g.w → g.x.2.PosDef → (f g).x.2.PosDef)
    (e : q.mix.c = p.mix.c.map f) : Good mx q := by
  refine ⟨?_, ?_, ?_⟩
  · intro g hg
    rw [e] at hg
    obtain ⟨g0, h0, rfl⟩ := List.mem_map.1 hg
    obtain ⟨h1, h2⟩ := h.cmp g0 h0
    exact ⟨by rw [hw]; exact h1, hP g0 h1 h2⟩
  · rw [e, List.length_map]; exact h.len
  · rcases h.sum with h1 | h1
    · left; rw [e, h1]; rfl
    · right
      rw [e, List.map_map, ← h1]
      congr 1
      apply List.map_congr_left
      intro g _
      exact hw g

theorem good_toLocal {mx : Nat} {p : Pdf} (h : Good mx p) (o : LL) : Good mx (toLocal o p) :=
  good_map h (fun g => ⟨(setHead (CF.ll2ne (head g.x.1) o) g.x.1, g.x.2), g.w⟩) (fun _ => rfl)
    (fun _ _ h => h) rfl

theorem good_toGlobal {mx : Nat} {p : Pdf} (h : Good mx p) (k : Opts) : Good mx (toGlobal k p) :=
  good_map h (fun g => ⟨(setHead (CF.ne2ll (head g.x.1) p.origin) g.x.1, g.x.2), g.w⟩)
    (fun _ => rfl) (fun _ _ h => h) rfl

/-- `normalize` repairs the weights. -/
theorem good_normalize {mx : Nat} {m : Mix GX ℝ} (hc : GoodC m.c) (hl : m.c.length ≤ mx) (p : Pdf) :
    Good mx { p with mix := GM.normalize m } := by
  obtain ⟨h1, h2⟩ := GM.C37_normalize m
  by_cases h : 1 / 100000000 < (m.c.map GM.Cmp.w).sum
  · have e := GM.normalize_c m h
    have hpos : 0 < (m.c.map GM.Cmp.w).sum := lt_trans (by norm_num) h
    refine ⟨?_, ?_, Or.inr (h1 h).1⟩
    · intro g hg
      simp only [e] at hg
      obtain ⟨g0, h0, rfl⟩ := List.mem_map.1 hg
      exact ⟨div_nonneg (hc g0 h0).1 hpos.le, (hc g0 h0).2⟩
    · simp only [e, List.length_map]; exact hl
  · have e := (h2 (not_lt.1 h)).1
    refine ⟨?_, ?_, Or.inl e⟩
    · intro g hg; simp only [e] at hg; cases hg
    · simp only [e, List.length_nil]; exact Nat.zero_le _

theorem cvF_mul (a b : ℝ) : Kalman.cvF b * Kalman.cvF a = Kalman.cvF (a + b) := by
  ext i j
  fin_cases i <;> fin_cases j <;> simp [Kalman.cvF, Matrix.mul_apply, Fin.sum_univ_four]

theorem cvF_zero : Kalman.cvF 0 = 1 := by
  ext i j
  fin_cases i <;> fin_cases j <;> simp [Kalman.cvF]

theorem cvF_inj (a : ℝ) : Function.Injective (Kalman.cvF a).vecMul := by
  intro x y h
  have h1 : (x ᵥ* Kalman.cvF a) ᵥ* Kalman.cvF (-a) = (y ᵥ* Kalman.cvF a) ᵥ* Kalman.cvF (-a) := by
    rw [show x ᵥ* Kalman.cvF a = y ᵥ* Kalman.cvF a from h]
  rw [vecMul_vecMul, vecMul_vecMul, cvF_mul, neg_add_cancel, cvF_zero, vecMul_one, vecMul_one] at h1
  exact h1

theorem good_move {mx : Nat} {p : Pdf} (h : Good mx p) {F Q : Matrix (Fin 4) (Fin 4) ℝ}
    (hF : Function.Injective F.vecMul) (hQ : Q.PosSemidef) : Good mx (moveMix F Q p) := by
  refine good_map h (fun g => ofG (Kalman.linearUpdate F Q (toG g))) (fun _ => rfl)
    (fun g _ hP => ?_) rfl
  have := hP.mul_mul_conjTranspose_same hF
  rw [conjTranspose_eq_transpose_of_trivial] at this
  exact this.add_posSemidef hQ

theorem good_correct {mx : Nat} {p : Pdf} (h : Good mx p) {pd : Nat → ℝ} (hpd : ∀ i, 0 ≤ pd i)
    (z : Rpt) : Good mx { p with mix := correctMix pd z p.mix } := by
  refine good_normalize ?_ ?_ p
  · intro g hg
    simp only at hg
    rw [List.mem_mapIdx] at hg
    obtain ⟨i, hi, rfl⟩ := hg
    obtain ⟨h1, h2⟩ := h.cmp _ (List.getElem_mem hi)
    refine ⟨?_, ?_⟩
    · exact (Kalman.C42_update Kalman.posH z.1 (toG _) (pd i) z.2.1 h2.posSemidef).2.2.2 h1 (hpd i)
        z.2.2.le
    · exact Kalman.correct_posDef Kalman.posH z.1 (toG _) z.2.1 h2 (pd i)
  · simp only [List.length_mapIdx]; exact h.len

theorem good_missed {mx : Nat} {p : Pdf} (h : Good mx p) (e : ℝ) :
    Good mx { p with mix := ⟨p.mix.c, e⟩ } := ⟨h.cmp, h.len, h.sum⟩

theorem init1_posDef {pv : Matrix (Fin 2) (Fin 2) ℝ} (hpv : pv.PosDef) (z : Rpt) :
    (Kalman.init1 pv z.1).P.PosDef := by
  refine PosDef.of_dotProduct_mulVec_pos
    (Kalman.C43_init_psd pv hpv.posSemidef z.1 z.2.1.posSemidef).isHermitian ?_
  intro x hx
  have e : star x ⬝ᵥ (Kalman.init1 pv z.1).P *ᵥ x = ![x 0, x 1] ⬝ᵥ z.1.P *ᵥ ![x 0, x 1] +
      ![x 2, x 3] ⬝ᵥ pv *ᵥ ![x 2, x 3] := by
    simp [Kalman.init1, dotProduct, mulVec, Fin.sum_univ_four, Fin.sum_univ_two]
    ring
  rw [e]
  have p1 := z.2.1.posSemidef.dotProduct_mulVec_nonneg ![x 0, x 1]
  have p2 := hpv.posSemidef.dotProduct_mulVec_nonneg ![x 2, x 3]
  simp only [star_trivial] at p1 p2
  by_cases h0 : (![x 0, x 1] : Fin 2 → ℝ) = 0
  · have h1 : (![x 2, x 3] : Fin 2 → ℝ) ≠ 0 := by
      intro h1
      apply hx
      funext i
      have a0 := congrFun h0 0
      have a1 := congrFun h0 1
      have b0 := congrFun h1 0
      have b1 := congrFun h1 1
      simp only [Matrix.cons_val_zero, Matrix.cons_val_one, Pi.zero_apply] at a0 a1 b0 b1
      fin_cases i <;> assumption
    have := hpv.dotProduct_mulVec_pos h1
    simp only [star_trivial] at this
    linarith
  · have := z.2.1.dotProduct_mulVec_pos h0
    simp only [star_trivial] at this
    linarith

theorem good_init {mx : Nat} (hmx : 0 < mx) (k : Opts) {pv : Matrix (Fin 2) (Fin 2) ℝ}
    (hpv : pv.PosDef) (z : Rpt) : Good mx (initPdf k pv z) ∧ (initPdf k pv z).mix.c ≠ [] := by
  constructor
  · apply good_toGlobal
    apply good_toLocal
    refine ⟨?_, ?_, Or.inr ?_⟩
    · intro g hg
      simp only [List.mem_singleton] at hg
      subst hg
      exact ⟨zero_le_one, init1_posDef hpv z⟩
    · exact hmx
    · simp [ofG, Kalman.init1]
  · simp [initPdf, toGlobal, toLocal, cGlobal, cLocal]

/-- The overall covariance of a density that is not empty is positive definite. -/
theorem Good.cov {mx : Nat} {p : Pdf} (h : Good mx p) (hne : p.mix.c ≠ []) :
    (Kalman.cov (p.mix.c.map toG)).PosDef := by
  have hs : (p.mix.c.map GM.Cmp.w).sum = 1 := h.sum.resolve_left hne
  have hex : ∃ g ∈ p.mix.c, 0 < g.w := by
    by_contra hc
    push Not at hc
    have : (p.mix.c.map GM.Cmp.w).sum ≤ 0 := by
      have := List.sum_le_card_nsmul (p.mix.c.map GM.Cmp.w) 0 (by
        intro x hx
        obtain ⟨g, hg, rfl⟩ := List.mem_map.1 hx
        exact hc g hg)
      simpa using this
    linarith
  obtain ⟨g, hg, hw⟩ := hex
  obtain ⟨l1, l2, hl⟩ := List.append_of_mem hg
  unfold Kalman.cov
  generalize Kalman.mean (p.mix.c.map toG) = x
  rw [Kalman.covAt_eq, hl]
  simp only [List.map_append, List.map_cons, List.sum_append, List.sum_cons, List.map_map]
  have term : ∀ g : Cmp, 0 ≤ g.w → g.x.2.PosDef →
      ((toG g).w • ((toG g).P + vecMulVec ((toG g).x - x) ((toG g).x - x))).PosSemidef := by
    intro g h1 h2
    exact (h2.posSemidef.add (Kalman.psd_vecMulVec _)).smul h1
  have rest : ∀ l : List Cmp, (∀ g ∈ l, g ∈ p.mix.c) →
      ((l.map ((fun g : Kalman.Gauss 4 => g.w • (g.P + vecMulVec (g.x - x) (g.x - x))) ∘ toG)).sum).PosSemidef := by
    intro l hl
    apply Kalman.psd_listSum
    intro A hA
    obtain ⟨g, hg, rfl⟩ := List.mem_map.1 hA
    obtain ⟨h1, h2⟩ := h.cmp g (hl g hg)
    exact term g h1 h2
  have hmid : ((toG g).w • ((toG g).P + vecMulVec ((toG g).x - x) ((toG g).x - x))).PosDef :=
    ((h.cmp g hg).2.add_posSemidef (Kalman.psd_vecMulVec _)).smul hw
  refine PosDef.posSemidef_add (rest l1 fun g hg => ?_) (hmid.add_posSemidef (rest l2 fun g hg => ?_))
  · rw [hl]; exact List.mem_append_left _ hg
  · rw [hl]; exact List.mem_append_right _ (List.mem_cons_of_mem _ hg)

/-! ## `join` -/

theorem good_join {k : Opts} (hs : SortOk k.srt) {p : Pdf} (hp : Good k.mx p) (w : List ℝ)
    (ps : List Pdf) (hlen : w.length = ps.length) (hw : ∀ x ∈ w, 0 ≤ x)
    (hps : ∀ q ∈ ps, Good k.mx q) : Good k.mx (joinPdf k p w ps) := by
  obtain ⟨m, kept, dropped, h1, h2, h3, h4, h5, h6, h7, h8⟩ := GM.C38_join k.srt hs k.lim k.mx w
    (ps.map fun q => q.mix.c) (by simpa using hlen) hw
  unfold joinPdf
  rw [h1]
  simp only
  have hk : GoodC kept := by
    intro g hg
    have := (h2.mem_iff (a := g)).1 (List.mem_append_left _ hg)
    rw [List.mem_flatMap] at this
    obtain ⟨y, hy, hgy⟩ := this
    obtain ⟨g0, h0, rfl⟩ := List.mem_map.1 hgy
    obtain ⟨q, hq, hqc⟩ := List.mem_map.1 (List.of_mem_zip (a := y.1) (b := y.2) hy).2
    rw [← hqc] at h0
    obtain ⟨a1, a2⟩ := (hps q hq).cmp g0 h0
    exact ⟨mul_nonneg (hw _ (List.of_mem_zip (a := y.1) (b := y.2) hy).1) a1, a2⟩
  by_cases h : 1 / 100000000 < (kept.map GM.Cmp.w).sum
  · obtain ⟨e1, e2, _⟩ := h7 h
    have hpos : 0 < (kept.map GM.Cmp.w).sum := lt_trans (by norm_num) h
    refine ⟨?_, ?_, Or.inr e2⟩
    · intro g hg
      simp only [e1] at hg
      obtain ⟨g0, h0, rfl⟩ := List.mem_map.1 hg
      exact ⟨div_nonneg (hk g0 h0).1 hpos.le, (hk g0 h0).2⟩
    · simp only [e1, List.length_map]; exact h3
  · have e := (h8 (not_lt.1 h)).1
    refine ⟨?_, ?_, Or.inl e⟩
    · intro g hg; simp only [e] at hg; cases hg
    · simp only [e, List.length_nil]; exact Nat.zero_le _

theorem flat_sum : ∀ l : List (ℝ × List Cmp),
    ((l.flatMap fun y => y.2.map fun g => (⟨g.x, y.1 * g.w⟩ : Cmp)).map GM.Cmp.w).sum =
      (l.map fun y => y.1 * (y.2.map GM.Cmp.w).sum).sum := by
  intro l
  induction l with
  | nil => rfl
  | cons y l ih =>
    rw [List.flatMap_cons, List.map_append, List.sum_append, ih, List.map_cons, List.sum_cons]
    congr 1
    rw [List.map_map, ← List.sum_map_mul_left]
    rfl

theorem flat_length {mx : Nat} : ∀ l : List (ℝ × List Cmp), (∀ y ∈ l, y.2.length ≤ mx) →
    (l.flatMap fun y => y.2.map fun g => (⟨g.x, y.1 * g.w⟩ : Cmp)).length ≤ l.length * mx := by
  intro l
  induction l with
  | nil => intro _; simp
  | cons y l ih =>
    intro h
    rw [List.flatMap_cons, List.length_append, List.length_map, List.length_cons, Nat.succ_mul]
    have h1 := h y List.mem_cons_self
    have h2 := ih fun x hx => h x (List.mem_cons_of_mem _ hx)
    omega

theorem sum_le_of_le {l : List Cmp} {b : ℝ} (h : ∀ g ∈ l, g.w ≤ b) :
    (l.map GM.Cmp.w).sum ≤ l.length * b := by
  induction l with
  | nil => simp
  | cons g l ih =>
    have h1 := h g List.mem_cons_self
    have h2 := ih fun x hx => h x (List.mem_cons_of_mem _ hx)
    simp only [List.map_cons, List.sum_cons, List.length_cons, Nat.cast_add, Nat.cast_one]
    linarith

theorem le_sum_of_le {l : List Cmp} {b : ℝ} (h : ∀ g ∈ l, b ≤ g.w) :
    l.length * b ≤ (l.map GM.Cmp.w).sum := by
  induction l with
  | nil => simp
  | cons g l ih =>
    have h1 := h g List.mem_cons_self
    have h2 := ih fun x hx => h x (List.mem_cons_of_mem _ hx)
    simp only [List.map_cons, List.sum_cons, List.length_cons, Nat.cast_add, Nat.cast_one]
    linarith

/-- `join` keeps a share of the total weight that does not depend on the weights: with the default
limits, at least one part in `3 n + 1` for `n` mixtures. -/
theorem join_nonempty {k : Opts} (hs : SortOk k.srt) (hmx : 0 < k.mx) (hlim : k.lim ≤ 1 / 100)
    (hml : k.mx * k.lim ≤ 2) (p : Pdf) (w : List ℝ) (ps : List Pdf) (hlen : w.length = ps.length)
    (hw : ∀ x ∈ w, 0 ≤ x) (hps : ∀ q ∈ ps, Good k.mx q)
    (hone : ∀ y ∈ w.zip (ps.map fun q => q.mix.c), y.1 = 0 ∨ (y.2.map GM.Cmp.w).sum = 1)
    (hr : (3 * w.length + 1) / 100000000 < w.sum) : (joinPdf k p w ps).mix.c ≠ [] := by
  obtain ⟨m, kept, dropped, h1, h2, h3, h4, h5, h6, h7, h8⟩ := GM.C38_join k.srt hs k.lim k.mx w
    (ps.map fun q => q.mix.c) (by simpa using hlen) hw
  unfold joinPdf
  rw [h1]
  simp only
  set T := (w.zip (ps.map fun q => q.mix.c)).flatMap fun y => y.2.map fun g =>
    (⟨g.x, y.1 * g.w⟩ : Cmp) with hT
  -- the total weight
  have hsum : (kept.map GM.Cmp.w).sum + (dropped.map GM.Cmp.w).sum = w.sum := by
    rw [← List.sum_append, ← List.map_append, (h2.map _).sum_eq, flat_sum]
    have : ((w.zip (ps.map fun q => q.mix.c)).map fun y => y.1 * (y.2.map GM.Cmp.w).sum) =
        (w.zip (ps.map fun q => q.mix.c)).map Prod.fst := by
      apply List.map_congr_left
      intro y hy
      rcases hone y hy with h | h
      · rw [h, zero_mul]
      · rw [h, mul_one]
    rw [this, List.map_fst_zip (by simp [hlen])]
  have hTl : T.length ≤ w.length * k.mx := by
    have := flat_length (mx := k.mx) (w.zip (ps.map fun q => q.mix.c)) (by
      intro y hy
      obtain ⟨q, hq, hqc⟩ := List.mem_map.1 (List.of_mem_zip (a := y.1) (b := y.2) hy).2
      rw [← hqc]
      exact (hps q hq).len)
    rwa [List.length_zip, List.length_map, hlen, Nat.min_self, ← hlen] at this
  have hlen2 : kept.length + dropped.length = T.length := by
    rw [← List.length_append, h2.length_eq]
  have hpos : ∀ g ∈ T, 0 ≤ g.w := by
    intro g hg
    rw [hT, List.mem_flatMap] at hg
    obtain ⟨y, hy, hgy⟩ := hg
    obtain ⟨g0, h0, rfl⟩ := List.mem_map.1 hgy
    obtain ⟨q, hq, hqc⟩ := List.mem_map.1 (List.of_mem_zip (a := y.1) (b := y.2) hy).2
    rw [← hqc] at h0
    exact mul_nonneg (hw _ (List.of_mem_zip (a := y.1) (b := y.2) hy).1) ((hps q hq).cmp g0 h0).1
  have hK : 0 ≤ (kept.map GM.Cmp.w).sum := by
    apply List.sum_nonneg
    intro x hx
    obtain ⟨g, hg, rfl⟩ := List.mem_map.1 hx
    exact hpos g ((h2.mem_iff).1 (List.mem_append_left _ hg))
  set K := (kept.map GM.Cmp.w).sum with hKdef
  set D := (dropped.map GM.Cmp.w).sum with hDdef
  have hn : (0 : ℝ) ≤ w.length := Nat.cast_nonneg _
  have hmx' : (0 : ℝ) < k.mx := by exact_mod_cast hmx
  have hTl' : (T.length : ℝ) ≤ w.length * k.mx := by exact_mod_cast hTl
  have hlen2' : (kept.length : ℝ) + dropped.length = T.length := by exact_mod_cast hlen2
  have key : D ≤ 3 * w.length * K := by
    rcases h6 with h6 | h6 | ⟨d, hd, hd1, hd2⟩
    · -- the limit on the number of components
      have hb : ∀ b ∈ dropped, b.w * k.mx ≤ K := by
        intro b hb
        have := le_sum_of_le (l := kept) (b := b.w) fun a ha => h5 a ha b hb
        rw [h6] at this
        linarith
      have h9 := sum_le_of_le (l := dropped) (b := K / k.mx) fun b hb' => by
        rw [le_div_iff₀ hmx']; exact hb b hb'
      have h10 : (dropped.length : ℝ) ≤ w.length * k.mx := by
        have : (0 : ℝ) ≤ kept.length := Nat.cast_nonneg _
        linarith
      have h11 : (dropped.length : ℝ) * (K / k.mx) ≤ w.length * K := by
        have := mul_le_mul_of_nonneg_right h10 (div_nonneg hK hmx'.le)
        rwa [mul_assoc, mul_div_cancel₀ _ hmx'.ne'] at this
      have := mul_nonneg hn hK
      linarith
    · rw [hDdef, h6]
      simpa using mul_nonneg (mul_nonneg (by norm_num : (0:ℝ) ≤ 3) hn) hK
    · have hd0 : 0 ≤ d.w := hpos d ((h2.mem_iff).1 (List.mem_append_right _ hd))
      have h9 := sum_le_of_le (l := dropped) (b := d.w) hd1
      have h10 : (dropped.length : ℝ) ≤ w.length * k.mx := by
        have : (0 : ℝ) ≤ kept.length := Nat.cast_nonneg _
        linarith
      have h11 : D ≤ w.length * k.mx * d.w := h9.trans (mul_le_mul_of_nonneg_right h10 hd0)
      by_cases h0 : K + d.w = 0
      · have : d.w = 0 := by linarith
        rw [this, mul_zero] at h11
        have := mul_nonneg (mul_nonneg (by norm_num : (0:ℝ) ≤ 3) hn) hK
        linarith
      · have h0' : 0 < K + d.w := lt_of_le_of_ne (add_nonneg hK hd0) (Ne.symm h0)
        rw [div_lt_iff₀ h0'] at hd2
        -- `d < lim (K + d)`, so `mx d ≤ 3 K`
        have h12 : k.mx * d.w ≤ 3 * K := by
          have e1 : k.mx * d.w ≤ k.mx * k.lim * (K + d.w) := by
            have := mul_le_mul_of_nonneg_left hd2.le hmx'.le
            linarith
          have e2 : k.mx * k.lim * (K + d.w) ≤ 2 * (K + d.w) :=
            mul_le_mul_of_nonneg_right hml h0'.le
          have e3 : d.w ≤ 1 / 100 * (K + d.w) :=
            hd2.le.trans (mul_le_mul_of_nonneg_right hlim h0'.le)
          linarith
        calc D ≤ w.length * (k.mx * d.w) := by linarith
          _ ≤ w.length * (3 * K) := mul_le_mul_of_nonneg_left h12 hn
          _ = 3 * w.length * K := by ring
  have hbig : 1 / 100000000 < K := by
    by_contra hc
    have hc := not_lt.1 hc
    have : w.sum ≤ (3 * w.length + 1) * K := by linarith
    have : (3 * (w.length : ℝ) + 1) * K ≤ (3 * w.length + 1) * (1 / 100000000) :=
      mul_le_mul_of_nonneg_left hc (by linarith)
    linarith
  intro he
  have := (h7 hbig).2.1
  rw [he] at this
  simp at this

end Verif.System
