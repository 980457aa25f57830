import Verif.System.Props
import Verif.System.Law
import Verif.Hyp.Marginal

/-! # One cluster against the exact posterior of its targets: C72 -/

namespace Verif.System

open Matrix MeasureTheory
open Verif.Lap (XR)
open Verif.Murty (PickOk)
open Verif.Hyp
open Verif.Tracker
open Verif.GM (SortOk Mix)
open Verif.Kalman (law mixLaw)

/-- The mass a list of components gives to a set, as a number. -/
noncomputable def massR (c : List Cmp) (A : Set (Fin 4 → ℝ)) : ℝ :=
  (c.map fun g => g.w * (law g.x.1 g.x.2).real A).sum

theorem massR_range {c : List Cmp} (hc : ∀ g ∈ c, 0 ≤ g.w) (A : Set (Fin 4 → ℝ)) :
    0 ≤ massR c A ∧ massR c A ≤ (c.map GM.Cmp.w).sum := by
  unfold massR
  constructor
  · apply List.sum_nonneg
    intro x hx
    obtain ⟨g, hg, rfl⟩ := List.mem_map.1 hx
    exact mul_nonneg (hc g hg) measureReal_nonneg
  · apply List.sum_le_sum
    intro g hg
    exact mul_le_of_le_one_right (hc g hg) measureReal_le_one

theorem lawOf_real {m : Mix GX ℝ} (hc : ∀ g ∈ m.c, 0 ≤ g.w) (A : Set (Fin 4 → ℝ)) :
    lawOf m A ≠ ⊤ ∧ (lawOf m A).toReal = massR m.c A := by
  unfold lawOf massR
  generalize m.c = c at hc ⊢
  induction c with
  | nil => simp
  | cons g c ih =>
    obtain ⟨h1, h2⟩ := ih fun q hq => hc q (List.mem_cons_of_mem _ hq)
    have h0 := hc g List.mem_cons_self
    rw [List.map_cons, List.map_cons, List.sum_cons, Kalman.mixLaw_cons, Measure.add_apply,
      Measure.smul_apply, smul_eq_mul]
    have hne : ENNReal.ofReal (toG g).w * law (toG g).x (toG g).P A ≠ ⊤ :=
      ENNReal.mul_ne_top ENNReal.ofReal_ne_top (measure_ne_top _ _)
    refine ⟨ENNReal.add_ne_top.2 ⟨hne, h1⟩, ?_⟩
    rw [ENNReal.toReal_add hne h1, h2, ENNReal.toReal_mul,
      ENNReal.toReal_ofReal (show 0 ≤ (toG g).w from h0)]
    rfl

theorem undetected_real {pd : Nat → ℝ} (hpd : ∀ i, pd i ≤ 1) {c : List Cmp}
    (hc : ∀ g ∈ c, 0 ≤ g.w) (A : Set (Fin 4 → ℝ)) :
    undetected pd c A ≠ ⊤ ∧ (undetected pd c A).toReal =
      (c.mapIdx fun i g => g.w * (1 - pd i) * (law g.x.1 g.x.2).real A).sum := by
  unfold undetected
  induction c generalizing pd with
  | nil => simp
  | cons g c ih =>
    obtain ⟨h1, h2⟩ := ih (pd := fun i => pd (i + 1)) (fun i => hpd _)
      fun q hq => hc q (List.mem_cons_of_mem _ hq)
    have h0 := mul_nonneg (hc g List.mem_cons_self) (sub_nonneg.2 (hpd 0))
    rw [List.mapIdx_cons, List.mapIdx_cons, List.sum_cons, List.sum_cons, Measure.add_apply,
      Measure.smul_apply, smul_eq_mul]
    have hne : ENNReal.ofReal (g.w * (1 - pd 0)) * law g.x.1 g.x.2 A ≠ ⊤ :=
      ENNReal.mul_ne_top ENNReal.ofReal_ne_top (measure_ne_top _ _)
    refine ⟨ENNReal.add_ne_top.2 ⟨hne, h1⟩, ?_⟩
    rw [ENNReal.toReal_add hne h1, h2, ENNReal.toReal_mul, ENNReal.toReal_ofReal h0]
    rfl

/-- If the detection probabilities of the components differ little, the prior is close to the
posterior given no detection. -/
theorem missed_gap {pd : Nat → ℝ} {τ : ℝ} (hτ : ∀ i j, |pd i - pd j| ≤ τ * (1 - pd j))
    (hpd : ∀ i, pd i ≤ 1) {c : List Cmp} (hc : ∀ g ∈ c, 0 ≤ g.w) (hs : (c.map GM.Cmp.w).sum = 1)
    (A : Set (Fin 4 → ℝ)) :
    |(undetected pd c Set.univ).toReal * massR c A - (undetected pd c A).toReal| ≤
      τ * (undetected pd c Set.univ).toReal := by
  set q := (undetected pd c Set.univ).toReal with hq
  have hq' : q = (c.mapIdx fun i g => g.w * (1 - pd i)).sum := by
    rw [hq, (undetected_real hpd hc Set.univ).2]
    simp
  -- `q` against one component
  have h1 : ∀ j, |q - (1 - pd j)| ≤ τ * q := by
    intro j
    have key : ∀ (c : List Cmp) (pd' : Nat → ℝ), (∀ g ∈ c, 0 ≤ g.w) →
        (∀ i, |pd' i - pd j| ≤ τ * (1 - pd' i)) →
        |(c.mapIdx fun i g => g.w * (1 - pd' i)).sum - (c.map GM.Cmp.w).sum * (1 - pd j)| ≤
          τ * (c.mapIdx fun i g => g.w * (1 - pd' i)).sum := by
      intro c
      induction c with
      | nil => intro pd' _ _; simp
      | cons g c ih =>
        intro pd' hc h
        have i1 := ih (fun i => pd' (i + 1)) (fun q hq => hc q (List.mem_cons_of_mem _ hq))
          fun i => h _
        have i0 := mul_le_mul_of_nonneg_left (h 0) (hc g List.mem_cons_self)
        rw [← abs_of_nonneg (hc g List.mem_cons_self), ← abs_mul,
          abs_of_nonneg (hc g List.mem_cons_self)] at i0
        simp only [List.mapIdx_cons, List.sum_cons, List.map_cons]
        rw [abs_le] at *
        constructor <;> linarith [i0.1, i0.2, i1.1, i1.2]
    have := key c pd hc fun i => by rw [abs_sub_comm]; exact hτ j i
    rwa [hs, one_mul, ← hq'] at this
  rw [(undetected_real hpd hc A).2]
  have key : ∀ (c : List Cmp) (pd' : Nat → ℝ), (∀ g ∈ c, 0 ≤ g.w) →
      (∀ i, |q - (1 - pd' i)| ≤ τ * q) →
      |q * massR c A - (c.mapIdx fun i g => g.w * (1 - pd' i) * (law g.x.1 g.x.2).real A).sum| ≤
        τ * q * (c.map GM.Cmp.w).sum := by
    intro c
    induction c with
    | nil => intro pd' _ _; simp [massR]
    | cons g c ih =>
      intro pd' hc h
      have i1 := ih (fun i => pd' (i + 1)) (fun q hq => hc q (List.mem_cons_of_mem _ hq))
        fun i => h _
      have hg := hc g List.mem_cons_self
      have hl : 0 ≤ (law g.x.1 g.x.2).real A := measureReal_nonneg
      have hl1 : (law g.x.1 g.x.2).real A ≤ 1 := measureReal_le_one
      have i0 : |g.w * (law g.x.1 g.x.2).real A * (q - (1 - pd' 0))| ≤ g.w * (τ * q) := by
        rw [abs_mul, abs_of_nonneg (mul_nonneg hg hl)]
        calc _ ≤ g.w * 1 * |q - (1 - pd' 0)| :=
              mul_le_mul_of_nonneg_right (mul_le_mul_of_nonneg_left hl1 hg) (abs_nonneg _)
          _ ≤ _ := by rw [mul_one]; exact mul_le_mul_of_nonneg_left (h 0) hg
      unfold massR at i1 ⊢
      simp only [List.mapIdx_cons, List.sum_cons, List.map_cons]
      rw [abs_le] at *
      constructor <;> linarith [i0.1, i0.2, i1.1, i1.2]
  have := key c pd hc h1
  rwa [hs, mul_one] at this

/-! ## `join` -/

theorem flat_mass (A : Set (Fin 4 → ℝ)) : ∀ l : List (ℝ × List Cmp),
    massR (l.flatMap fun y => y.2.map fun g => (⟨g.x, y.1 * g.w⟩ : Cmp)) A =
      (l.map fun y => y.1 * massR y.2 A).sum := by
  intro l
  induction l with
  | nil => rfl
  | cons y l ih =>
    unfold massR at ih ⊢
    rw [List.flatMap_cons, List.map_append, List.sum_append, ih, List.map_cons, List.sum_cons]
    congr 1
    rw [List.map_map, ← List.sum_map_mul_left]
    congr 1
    apply List.map_congr_left
    intro g _
    simp only [Function.comp]
    ring

/-- How much weight `D` may be lost when `n` mixtures of at most `m` components, of total weight `r`, are joined to
`c` (`gm.hpp:147-187`): never more than there is, per component at most `cw_lim` or the share of one of the `mx`
components that are kept, and only the former if there is room for all components or room is left. -/
structure DropOk (k : Opts) (n m : Nat) (c : List Cmp) (r D : ℝ) : Prop where
  nonneg : 0 ≤ D
  le : D ≤ r
  share : 0 < k.mx → D ≤ n * m * max k.lim (1 / k.mx) * r
  room : n * m ≤ k.mx ∨ c ≠ [] ∧ c.length < k.mx → D ≤ n * m * max 0 k.lim * r

theorem correctMix_length (pd : Nat → ℝ) (z : Rpt) (m : Mix GX ℝ) : (correctMix pd z m).c.length ≤ m.c.length := by
  unfold correctMix GM.normalize
  split
  · simp
  · exact Nat.zero_le _

/-- `join` against the weighted sum of the mixtures: the difference is the weight of what was
dropped. -/
theorem join_mass {k : Opts} (hs : SortOk k.srt) (p : Pdf) (w : List ℝ) (ps : List Pdf)
    (hlen : w.length = ps.length) (hw : ∀ x ∈ w, 0 ≤ x) (hps : ∀ q ∈ ps, GoodC q.mix.c)
    (hone : ∀ y ∈ w.zip (ps.map fun q => q.mix.c), y.1 = 0 ∨ (y.2.map GM.Cmp.w).sum = 1) {l : Nat}
    (hl : ∀ q ∈ ps, q.mix.c.length ≤ l) :
    ∃ D, DropOk k ps.length l (joinPdf k p w ps).mix.c w.sum D ∧
      ∀ A, |w.sum * (lawOf (joinPdf k p w ps).mix A).toReal -
        ((w.zip ps).map fun y => y.1 * massR y.2.mix.c A).sum| ≤ 1 / 100000000 + D := by
  obtain ⟨m, kept, dropped, h1, h2, h3, h4, h5, h6, h7, h8⟩ := GM.C38_join k.srt hs k.lim k.mx w
    (ps.map fun q => q.mix.c) (by simpa using hlen) hw
  have hm : (joinPdf k p w ps).mix = m := by
    unfold joinPdf
    rw [h1]
  rw [hm]
  have hall : ∀ g ∈ kept ++ dropped, 0 ≤ g.w := by
    intro g hg
    have := (h2.mem_iff (a := g)).1 hg
    rw [List.mem_flatMap] at this
    obtain ⟨y, hy, hgy⟩ := this
    obtain ⟨g0, h0, rfl⟩ := List.mem_map.1 hgy
    obtain ⟨q, hq, hqc⟩ := List.mem_map.1 (List.of_mem_zip (a := y.1) (b := y.2) hy).2
    rw [← hqc] at h0
    exact mul_nonneg (hw _ (List.of_mem_zip (a := y.1) (b := y.2) hy).1) (hps q hq g0 h0).1
  have hk : ∀ g ∈ kept, 0 ≤ g.w := fun g hg => hall g (List.mem_append_left _ hg)
  have hd : ∀ g ∈ dropped, 0 ≤ g.w := fun g hg => hall g (List.mem_append_right _ hg)
  have hsum : (kept.map GM.Cmp.w).sum + (dropped.map GM.Cmp.w).sum = w.sum := by
    rw [← List.sum_append, ← List.map_append, (h2.map _).sum_eq, flat_sum]
    have : ((w.zip (ps.map fun q => q.mix.c)).map fun y => y.1 * (y.2.map GM.Cmp.w).sum) =
        (w.zip (ps.map fun q => q.mix.c)).map Prod.fst := by
      apply List.map_congr_left
      intro y hy
      rcases hone y hy with h | h
      · rw [h, zero_mul]
      · rw [h, mul_one]
    rw [this, List.map_fst_zip (by simp [hlen])]
  have hA : ∀ A, massR kept A + massR dropped A =
      ((w.zip ps).map fun y => y.1 * massR y.2.mix.c A).sum := by
    intro A
    have e1 : massR kept A + massR dropped A = massR (kept ++ dropped) A := by
      unfold massR
      rw [List.map_append, List.sum_append]
    have e2 := (h2.map fun g => g.w * (law g.x.1 g.x.2).real A).sum_eq
    change massR (kept ++ dropped) A = massR _ A at e2
    rw [e1, e2, flat_mass, List.zip_map_right, List.map_map]
    rfl
  set K := (kept.map GM.Cmp.w).sum with hK
  set D := (dropped.map GM.Cmp.w).sum with hD
  have hD0 : 0 ≤ D := by
    have := massR_range hd ∅
    linarith [this.1, this.2]
  have hK0 : 0 ≤ K := by
    have := massR_range hk ∅
    linarith [this.1, this.2]
  have hr0 : 0 ≤ w.sum := by rw [← hsum]; exact add_nonneg hK0 hD0
  have hlen2 : kept.length + dropped.length ≤ ps.length * l := by
    rw [← List.length_append, h2.length_eq]
    have := flat_length (mx := l) (w.zip (ps.map fun q => q.mix.c)) (by
      intro y hy
      obtain ⟨q, hq, hqc⟩ := List.mem_map.1 (List.of_mem_zip (a := y.1) (b := y.2) hy).2
      rw [← hqc]
      exact hl q hq)
    rwa [List.length_zip, List.length_map, hlen, Nat.min_self] at this
  have hdl : (dropped.length : ℝ) ≤ ps.length * l := by exact_mod_cast (Nat.le_add_left _ _).trans hlen2
  have hnl : (0 : ℝ) ≤ ps.length * l := by positivity
  have hnil : dropped = [] → DropOk k ps.length l m.c w.sum D := by
    intro h
    have : D = 0 := by rw [hD, h]; rfl
    rw [this]
    refine ⟨le_refl _, hr0, fun hx => ?_, fun _ => ?_⟩
    · have : (0 : ℝ) ≤ max k.lim (1 / k.mx) := le_max_of_le_right (by positivity)
      positivity
    · have : (0 : ℝ) ≤ max 0 k.lim := le_max_left _ _
      positivity
  refine ⟨D, ?_, ?_⟩
  · rcases h6 with h | h | ⟨d, hdm, hmax, hlt⟩
    · refine ⟨hD0, by linarith, fun hx => ?_, fun hroom => ?_⟩
      · have hx' : (0 : ℝ) < k.mx := by exact_mod_cast hx
        have h9 := sum_le_of_le (l := dropped) (b := 1 / k.mx * w.sum) fun b hb => by
          have := le_sum_of_le (l := kept) (b := b.w) fun a ha => h5 a ha b hb
          rw [h] at this
          rw [div_mul_eq_mul_div, le_div_iff₀ hx']
          linarith
        have h10 : (dropped.length : ℝ) * (1 / k.mx * w.sum) ≤ ps.length * l * (1 / k.mx * w.sum) :=
          mul_le_mul_of_nonneg_right hdl (by positivity)
        have h11 : (ps.length : ℝ) * l * (1 / k.mx * w.sum) ≤ ps.length * l * (max k.lim (1 / k.mx) * w.sum) :=
          mul_le_mul_of_nonneg_left (mul_le_mul_of_nonneg_right (le_max_right _ _) hr0) hnl
        linarith
      · have hnd : dropped = [] := by
          rcases hroom with hroom | ⟨hc, hroom⟩
          · exact List.length_eq_zero_iff.1 (by omega)
          · exfalso
            have hb : 1 / 100000000 < K := by
              by_contra hb
              exact hc (h8 (not_lt.1 hb)).1
            rw [(h7 hb).1, List.length_map, h] at hroom
            exact lt_irrefl _ hroom
        exact (hnil hnd).room hroom
    · exact hnil h
    · have hlim : ∀ g ∈ dropped, g.w ≤ k.lim * w.sum := ?_
      · have h9 := sum_le_of_le hlim
        have key : ∀ x, k.lim ≤ x → 0 ≤ x → D ≤ ps.length * l * x * w.sum := by
          intro x h1 h2
          have h3 : k.lim * w.sum ≤ x * w.sum := mul_le_mul_of_nonneg_right h1 hr0
          have h4 := mul_le_mul hdl (le_refl (x * w.sum)) (by positivity) hnl
          have h5 := mul_le_mul_of_nonneg_left h3 (Nat.cast_nonneg (α := ℝ) dropped.length)
          linarith
        exact ⟨hD0, by linarith, fun hx => key _ (le_max_left _ _) (le_max_of_le_right (by positivity)),
          fun _ => key _ (le_max_right _ _) (le_max_left _ _)⟩
      intro g hg
      have hd0 := hd d hdm
      have hdD : d.w ≤ D := by
        have := List.single_le_sum (l := dropped.map GM.Cmp.w) (by
          intro x hx
          obtain ⟨q, hq, rfl⟩ := List.mem_map.1 hx
          exact hd q hq) d.w (List.mem_map_of_mem hdm)
        exact this
      have hl0 : 0 ≤ k.lim := (lt_of_le_of_lt (div_nonneg hd0 (by linarith)) hlt).le
      refine (hmax g hg).trans ?_
      have h9 : d.w ≤ k.lim * (K + d.w) := by
        rcases (add_nonneg hK0 hd0).lt_or_eq with h | h
        · rw [div_lt_iff₀ h] at hlt
          exact hlt.le
        · have : d.w = 0 := by linarith
          rw [← h, mul_zero, this]
      refine h9.trans (mul_le_mul_of_nonneg_left ?_ hl0)
      linarith
  · intro A
    rw [← hA, ← hsum]
    obtain ⟨a1, a2⟩ := massR_range hk A
    obtain ⟨b1, b2⟩ := massR_range hd A
    rw [← hK] at a2
    rw [← hD] at b2
    by_cases hb : 1 / 100000000 < K
    · have hpos : 0 < K := lt_trans (by norm_num) hb
      have hmc := (h7 hb).1
      have hnn : ∀ g ∈ m.c, 0 ≤ g.w := by
        intro g hg
        rw [hmc] at hg
        obtain ⟨g0, h0, rfl⟩ := List.mem_map.1 hg
        exact div_nonneg (hk g0 h0) hpos.le
      have e : massR m.c A = massR kept A / K := by
        rw [hmc]
        unfold massR
        rw [List.map_map, div_eq_mul_inv, ← List.sum_map_mul_right]
        congr 1
        apply List.map_congr_left
        intro g _
        simp only [Function.comp]
        ring
      rw [(lawOf_real hnn A).2, e]
      have e2 : (K + D) * (massR kept A / K) = massR kept A + D * (massR kept A / K) := by
        field_simp
      have h1 : massR kept A / K ≤ 1 := by rw [div_le_one hpos]; exact a2
      have h0 : 0 ≤ massR kept A / K := div_nonneg a1 hpos.le
      have h9 : D * (massR kept A / K) ≤ D := mul_le_of_le_one_right hD0 h1
      have h10 : 0 ≤ D * (massR kept A / K) := mul_nonneg hD0 h0
      rw [e2, abs_le]
      constructor <;> linarith
    · have hmc := (h8 (not_lt.1 hb)).1
      have e : (lawOf m A).toReal = 0 := by
        rw [(lawOf_real (by intro g hg; rw [hmc] at hg; cases hg) A).2, hmc]
        rfl
      rw [e, abs_le]
      have := not_lt.1 hb
      constructor <;> linarith

theorem zip_sum {n : Nat} (w : Fin n → ℝ) (ps : List Pdf) (h : n = ps.length) (φ : Pdf → ℝ) :
    (((List.ofFn w).zip ps).map fun y => y.1 * φ y.2).sum = ∑ j : Fin n, w j * φ ps[j.val] := by
  have : (((List.ofFn w).zip ps).map fun y => y.1 * φ y.2) =
      List.ofFn fun j : Fin n => w j * φ ps[j.val] := by
    apply List.ext_getElem
    · simp [h]
    · intro m h1 h2
      simp
  rw [this, List.sum_ofFn]

/-! ## The exact posterior -/

/-- What a target can have done in a scan, with its state in `A` if it exists: the weight of a prior
with existence probability `r` and the density of the target, times the likelihood. -/
noncomputable def fateMass (s : PSens) (rl : List Rpt) (t : Nat × Tgt Pdf) (A : Set (Fin 4 → ℝ)) :
    Fate rl.length → ℝ
  | .report j => t.2.r * (detected (s.pdDet t.1 (rl.get j)) (rl.get j) t.2.pdf.mix.c A).toReal
  | .missed => t.2.r * (undetected (s.pdMiss t.1) t.2.pdf.mix.c A).toReal
  | .absent => 1 - t.2.r

/-- The posterior probability that target `i` exists and has its state in `A`: the weight of the
joint events in which it does, over the weight of all joint events. -/
noncomputable def posterior (s : PSens) (tl : List (Nat × Tgt Pdf)) (rl : List Rpt)
    (i : Fin tl.length) (A : Set (Fin 4 → ℝ)) : ℝ :=
  (evidence (fun k => fateMass s rl (tl.get k) (if k = i then A else Set.univ))
    fun e => e i ≠ .absent) /
  evidence (fun k => fateMass s rl (tl.get k) Set.univ) fun _ => True

/-- The posterior probability that no target caused report `j`. -/
noncomputable def unclaimed (s : PSens) (tl : List (Nat × Tgt Pdf)) (rl : List Rpt)
    (j : Fin rl.length) : ℝ :=
  (evidence (fun k => fateMass s rl (tl.get k) Set.univ) fun e => ∀ i, e i ≠ .report j) /
  evidence (fun k => fateMass s rl (tl.get k) Set.univ) fun _ => True

/-- The larger of the weights of the two fates of a target that take no report. -/
noncomputable def idle (s : PSens) (t : Nat × Tgt Pdf) : ℝ :=
  max (1 - t.2.r) (t.2.r * (undetected (s.pdMiss t.1) t.2.pdf.mix.c Set.univ).toReal)

section core

variable {M N : Nat}

/-- Writing 30000 for the cost of a fate that cannot be. -/
theorem fls_cut {det : Fin M → Fin N → XR} {miss fls : Fin M → XR} {r q : Fin M → ℝ} {δ : ℝ} {B : ℚ}
    (hr1 : ∀ i, r i ≤ 1) (hpos : ∀ i, 0 < max (1 - r i) (r i * q i))
    (hB : ∀ i, δ - Real.log (max (1 - r i) (r i * q i)) ≤ B)
    (hm : ∀ i, Near δ (miss i) (r i * q i))
    (hf : ∀ i, (r i < 1 → Near δ (fls i) (1 - r i)) ∧ (r i = 1 → fls i = XR.fin 30000)) :
    Cut (weights det miss fls) (weights det miss fun i => open Classical in
        if r i < 1 then fls i else XR.pinf) 1 (fun _ => Real.exp (B - 30000))
      (fun i => open Classical in if r i < 1 then .absent else .missed) := by
  classical
  have one : ∀ i, ¬ r i < 1 → r i = 1 := fun i h => le_antisymm (hr1 i) (not_lt.1 h)
  have npos : ∀ {c w}, Near δ c w → 0 < w → 0 < costWeight c := by
    intro c w h hw
    have h2 := (near_weight h).2
    by_contra hc
    have : costWeight c = 0 := le_antisymm (not_lt.1 hc) (costWeight_nonneg c)
    rw [this, mul_zero] at h2
    linarith
  have mpos : ∀ i, r i = 1 → max (1 - r i) (r i * q i) = r i * q i := by
    intro i h
    have := hpos i
    rw [h, sub_self, one_mul] at this ⊢
    rcases lt_max_iff.1 this with h | h
    · exact absurd h (lt_irrefl _)
    · exact max_eq_right h.le
  refine ⟨fun i f => weights_nonneg _ _ _ i f, ?_, ?_, ?_, ?_, ?_, fun i => (Real.exp_pos _).le⟩
  · intro i f
    cases f with
    | report j => exact Or.inl rfl
    | missed => exact Or.inl rfl
    | absent =>
      by_cases h : r i < 1
      · left
        simp only [weights, if_pos h]
      · right
        have e := one i h
        refine ⟨?_, weights_nonneg _ _ _ i _, ?_⟩
        · simp only [weights, if_neg h, costWeight]
        · have hp := hpos i
          have hb := hB i
          rw [mpos i e] at hp hb
          have h2 := (near_weight (hm i)).2
          simp only [weights, if_neg h, (hf i).2 e]
          have h3 : Real.exp (-(B : ℝ)) ≤ costWeight (miss i) := by
            have : Real.exp (δ - B) ≤ r i * q i := by
              rw [← Real.exp_log hp]
              exact Real.exp_le_exp.2 (by linarith)
            have h4 := mul_le_mul_of_nonneg_left (this.trans h2) (Real.exp_nonneg (-δ))
            rw [← mul_assoc, ← Real.exp_add, ← Real.exp_add, neg_add_cancel, Real.exp_zero,
              one_mul] at h4
            refine le_trans (Real.exp_le_exp.2 ?_) h4
            linarith
          have h5 := mul_le_mul_of_nonneg_left h3 (Real.exp_nonneg ((B : ℝ) - 30000))
          rw [← Real.exp_add] at h5
          refine le_trans ?_ h5
          unfold costWeight
          apply Real.exp_le_exp.2
          push_cast
          linarith
  · intro i
    refine ⟨{.absent}, by simp, fun f hf => ?_⟩
    cases f with
    | report j => exact absurd rfl hf
    | missed => exact absurd rfl hf
    | absent => simp
  · intro i
    by_cases h : r i < 1
    · simp only [if_pos h]; exact Or.inl rfl
    · simp only [if_neg h]; exact Or.inr rfl
  · intro i
    by_cases h : r i < 1
    · simp only [if_pos h]
      exact npos ((hf i).1 h) (sub_pos.2 h)
    · simp only [if_neg h]
      have := hpos i
      rw [mpos i (one i h)] at this
      exact npos (hm i) this
  · intro i
    by_cases h : r i < 1
    · simp only [if_pos h, weights]
    · simp only [if_neg h, weights]

theorem le_spur (M : Nat) (B : ℚ) :
    (∏ _i : Fin M, (1 + ((1 : Nat) : ℝ) * Real.exp (B - 30000))) - 1 ≤ spur M B := by
  unfold spur
  rw [Finset.prod_const, Finset.card_univ, Fintype.card_fin, Nat.cast_one, one_mul]
  rcases M.eq_zero_or_pos with rfl | h
  · simp
  · have h1 : (1 : ℝ) ≤ M := by exact_mod_cast h
    have he := Real.exp_pos ((B : ℝ) - 30000)
    gcongr
    nlinarith

/-- The chain of approximations, for one target and one set. -/
theorem core {det : Fin M → Fin N → XR} {miss fls : Fin M → XR} {r q : Fin M → ℝ} {B : ℚ}
    {l : Fin M → Fin N → ℝ} {δ ε τ : ℝ} (hδ : 0 ≤ δ) (hτ : 0 ≤ τ) (hr0 : ∀ i, 0 ≤ r i)
    (hr1 : ∀ i, r i ≤ 1) (hl : ∀ i j, 0 ≤ l i j) (hq : ∀ i, 0 ≤ q i)
    (hpos : ∀ i, 0 < max (1 - r i) (r i * q i))
    (hB : ∀ i, δ - Real.log (max (1 - r i) (r i * q i)) ≤ B)
    (hd : ∀ i j, Near δ (det i j) (r i * if 1 / 100000000 < l i j then l i j else 0))
    (hm : ∀ i, Near δ (miss i) (r i * q i))
    (hf : ∀ i, (r i < 1 → Near δ (fls i) (1 - r i)) ∧ (r i = 1 → fls i = XR.fin 30000)) :
    (∀ (i : Fin M) (x : Fin (N + 1) → ℝ) (g g' : Fate N → ℝ),
      (∀ j, |x j - bayes (weights det miss fls) fun e => e i = fateOf j| ≤ ε) →
      (∀ f, 0 ≤ g f ∧ g f ≤ 1) → (∀ f, |g f - g' f| ≤ τ) →
      |∑ j, g (fateOf j) * x j - avg (lmbWeights r l q) (ofFate i g')| ≤ (N + 1) * ε + spur M B +
        (Real.exp (2 * M * δ) - 1) +
        ((∏ k, (1 + N * (r k / max (1 - r k) (r k * q k) / 100000000))) - 1) + τ) ∧
    ∀ Q, |bayes (weights det miss fls) Q - bayes (lmbWeights r l q) Q| ≤ spur M B +
        (Real.exp (2 * M * δ) - 1) +
        ((∏ k, (1 + N * (r k / max (1 - r k) (r k * q k) / 100000000))) - 1) := by
  classical
  set l' : Fin M → Fin N → ℝ := fun i j => if 1 / 100000000 < l i j then l i j else 0 with hl'
  have hl0 : ∀ i j, 0 ≤ l' i j := by
    intro i j
    simp only [hl']
    split
    · exact hl i j
    · exact le_refl _
  have hW : ∀ i f, 0 ≤ lmbWeights r l q i f := by
    intro i f
    cases f with
    | report j => exact mul_nonneg (hr0 i) (hl i j)
    | missed => exact mul_nonneg (hr0 i) (hq i)
    | absent => exact sub_nonneg.2 (hr1 i)
  have hV : ∀ i f, 0 ≤ lmbWeights r l' q i f := by
    intro i f
    cases f with
    | report j => exact mul_nonneg (hr0 i) (hl0 i j)
    | missed => exact mul_nonneg (hr0 i) (hq i)
    | absent => exact sub_nonneg.2 (hr1 i)
  set an : Fin M → Fate N := fun i => if r i * q i ≤ 1 - r i then .absent else .missed with han
  have hanW : ∀ (l : Fin M → Fin N → ℝ) i, lmbWeights r l q i (an i) = max (1 - r i) (r i * q i) := by
    intro l i
    by_cases h : r i * q i ≤ 1 - r i
    · simp only [han, if_pos h, lmbWeights, max_eq_left h]
    · simp only [han, if_neg h, lmbWeights, max_eq_right (not_le.1 h).le]
  have hcut : Cut (lmbWeights r l q) (lmbWeights r l' q) N
      (fun k => r k / max (1 - r k) (r k * q k) / 100000000) an := by
    refine ⟨hV, ?_, ?_, ?_, fun i => ?_, fun i => ?_, fun i =>
      div_nonneg (div_nonneg (hr0 i) (hpos i).le) (by norm_num)⟩
    · intro i f
      cases f with
      | report j =>
        by_cases h : 1 / 100000000 < l i j
        · left
          simp only [lmbWeights, hl', if_pos h]
        · right
          refine ⟨?_, hW i _, ?_⟩
          · simp only [lmbWeights, hl', if_neg h, mul_zero]
          · have h1 := (hpos i).ne'
            have := mul_le_mul_of_nonneg_left (not_lt.1 h) (hr0 i)
            rw [hanW]
            simp only [lmbWeights]
            have e : r i / max (1 - r i) (r i * q i) / 100000000 * max (1 - r i) (r i * q i) =
                r i * (1 / 100000000) := by
              field_simp
            rw [e]
            exact this
      | missed => exact Or.inl rfl
      | absent => exact Or.inl rfl
    · intro i
      refine ⟨Finset.univ.image Fate.report, ?_, ?_⟩
      · exact Finset.card_image_le.trans (by simp)
      · intro f hf
        cases f with
        | report j => exact Finset.mem_image_of_mem _ (Finset.mem_univ j)
        | missed => exact absurd rfl hf
        | absent => exact absurd rfl hf
    · intro i
      by_cases h : r i * q i ≤ 1 - r i
      · simp only [han, if_pos h]; exact Or.inl rfl
      · simp only [han, if_neg h]; exact Or.inr rfl
    · rw [hanW]; exact hpos i
    · rw [hanW, hanW]
  have hk : 1 ≤ Real.exp (2 * M * δ) := Real.one_le_exp (by positivity)
  have hcut0 := fls_cut (det := det) hr1 hpos hB hm hf
  set fls' : Fin M → XR := fun i => if r i < 1 then fls i else XR.pinf with hfls'
  have hf' : ∀ i, Near δ (fls' i) (1 - r i) := by
    intro i
    by_cases h : r i < 1
    · simp only [hfls', if_pos h]; exact (hf i).1 h
    · simp only [hfls', if_neg h]
      exact Or.inl ⟨by linarith [le_antisymm (hr1 i) (not_lt.1 h)], rfl⟩
  have hround := C65_rounding hr0 hr1 hl0 hq hpos hd hm hf'
  have step : ∀ φ : (Fin M → Fate N) → ℝ, (∀ e, 0 ≤ φ e) → (∀ e, φ e ≤ 1) →
      |avg (weights det miss fls) φ - avg (lmbWeights r l q) φ| ≤ spur M B +
        (Real.exp (2 * M * δ) - 1) +
        ((∏ k, (1 + N * (r k / max (1 - r k) (r k * q k) / 100000000))) - 1) := by
    intro φ h0 h1
    have a0 := (hcut0.avg h0 h1).trans (le_spur M B)
    have a1 := avg_ratio hV hk hround h0 h1
    have a2 := hcut.avg h0 h1
    rw [abs_le] at *
    constructor <;> linarith [a0.1, a0.2, a1.1, a1.2, a2.1, a2.2]
  constructor
  · intro i x g g' hx hg hgg
    have h0 : ∀ e, 0 ≤ ofFate i g e := by
      intro e
      unfold ofFate
      split
      · exact le_refl _
      · exact (hg _).1
    have h1 : ∀ e, ofFate i g e ≤ 1 := by
      intro e
      unfold ofFate
      split
      · exact zero_le_one
      · exact (hg _).2
    have b1 : |∑ j, g (fateOf j) * x j - avg (weights det miss fls) (ofFate i g)| ≤ (N + 1) * ε := by
      rw [avg_ofFate, ← Finset.sum_sub_distrib]
      refine (Finset.abs_sum_le_sum_abs _ _).trans ?_
      calc _ ≤ ∑ _j : Fin (N + 1), ε := by
            refine Finset.sum_le_sum fun j _ => ?_
            rw [← mul_sub, abs_mul, abs_of_nonneg (hg _).1]
            exact (mul_le_of_le_one_left (abs_nonneg _) (hg _).2).trans (hx j)
        _ = _ := by simp
    have b2 := step _ h0 h1
    have b3 : |avg (lmbWeights r l q) (ofFate i g) - avg (lmbWeights r l q) (ofFate i g')| ≤ τ := by
      refine avg_diff hW hτ fun e => ?_
      unfold ofFate
      split
      · simpa using hτ
      · exact hgg _
    rw [abs_le] at *
    constructor <;> linarith [b1.1, b1.2, b2.1, b2.2, b3.1, b3.2]
  · intro Q
    rw [bayes_eq_avg, bayes_eq_avg]
    refine step _ (fun e => ?_) fun e => ?_
    · split
      · exact zero_le_one
      · exact le_refl _
    · split
      · exact le_refl _
      · exact zero_le_one

end core

theorem idle_toLocal {s : PSens} (hs : SensOk s) {mx : Nat} {t : Nat × Tgt Pdf} (h : Fine mx t.2)
    (o : LL) : idle s (t.1, { t.2 with pdf := toLocal o t.2.pdf }) = idle s t := by
  obtain ⟨_, h2, h3⟩ := h
  have h2' := good_toLocal h2 o
  have h3' : (toLocal o t.2.pdf).mix.c ≠ [] := by
    change cLocal o t.2.pdf.mix.c ≠ []
    simpa [cLocal] using h3
  unfold idle
  dsimp only
  rw [← C69_evidence (fun a => (hs.miss t.1 a).2) t.2.pdf.mix h2.cmp (h2.sum.resolve_left h3),
    ← C69_evidence (fun a => (hs.miss t.1 a).2) (toLocal o t.2.pdf).mix h2'.cmp
      (h2'.sum.resolve_left h3')]
  have : missedEta (s.pdMiss t.1) (toLocal o t.2.pdf).mix = missedEta (s.pdMiss t.1) t.2.pdf.mix := by
    unfold missedEta toLocal cLocal
    congr 1
    exact List.ext_getElem (by simp) (by intro i h1 h2; simp)
  rw [this]

theorem compute_eq {k : Opts} {s : PSens} {prm : Params}
    {pick : ∀ r c, List (Murty.Node r c) → Nat} {fuel : Nat} {wt : ℚ → ℝ}
    {ts tl : List (Nat × Tgt Pdf)} {rs rl : List Rpt} {o : LL}
    (ho : o = (env k).center (rs.map (env k).rpos ++ ts.map fun t => (env k).pos t.2.pdf))
    (htl : tl = ts.map fun t => (t.1, forth (env k) o t.2))
    (hrl : rl = rs.map ((env k).rLocal o)) :
    compute (env k) (sensor k s) prm pick fuel wt ts rs =
      if tl.length = 0 then some ⟨0, [], rl.map (rGlobal o), rl.map fun _ => some 1⟩
      else match hypotheses (pick _ _) fuel wt prm.wlim prm.nhypMax (costMatrix
        (fun (i : Fin tl.length) (j : Fin rl.length) =>
          (sensor k s).detCost (tl.get i).1 (tl.get i).2.r (tl.get i).2.pdf (rl.get j))
        (fun i => (sensor k s).missCost (tl.get i).1 (tl.get i).2.r (tl.get i).2.pdf)
        (fun i => (sensor k s).flsCost (tl.get i).2.r)) with
      | none => none
      | some a =>
        if a.n = 0 then some ⟨0, tl.map fun t => back (env k) t.2, rl.map (rGlobal o),
          rl.map fun _ => some 1⟩
        else some ⟨a.n, List.ofFn fun i => back (env k) (corrected (env k) (sensor k s)
          (tl.get i).1 (tl.get i).2 rl (List.ofFn fun j => a.R i j / a.wsum) (a.rowSum i)),
          rl.map (rGlobal o), List.ofFn a.rB⟩ := by
  subst htl hrl ho
  unfold compute
  dsimp only
  congr 1
  generalize hypotheses _ _ _ _ _ _ = H
  cases H with
  | none => rfl
  | some a => rfl

/-- **C72** One cluster against the exact posterior of its targets.

`compute` works in the local frame of the cluster, on the targets `tl` and the reports `rl`.  Take
any set `A` of states.  What the tracker gives to "target `i` exists and its state is in `A`", that
is existence probability times the mass of `A` in the new density, differs from the exact Bayes
posterior by at most the sum of:
* `ε` per report and one more, for the hypotheses not drawn and the price of writing 30000 for
  infinity (as in `C65_posterior`; the latter also for `1 - r` if `r = 1`, `target.hpp:183-189`);
* `exp (2 M δ) - 1` for logarithms with an error up to `δ`;
* the reports with a likelihood ratio of at most 1e-8, which are ignored;
* `τ`, the relative spread of the detection probabilities within a mixture, as `missed` does not
  reweight the components;
* `1e-6`, below which an existence probability is set to zero;
* the weight `D i` of the components that `join` drops (`DropOk`): if not more than the maximal number of components
  come in, or fewer are kept, at most `cw_lim` times the existence probability for each.
The birth probabilities are near the posterior probability that no target caused the report. -/
theorem C72_cluster {k : Opts} (hk : SortOk k.srt) (prm : Params) {s : PSens} (hs : SensOk s)
    {δ τ : ℝ} (hlog : ∀ x, 0 ≤ x → Near δ (s.lg x) x) (hτ0 : 0 ≤ τ)
    (hτ : ∀ a i j, |s.pdMiss a i - s.pdMiss a j| ≤ τ * (1 - s.pdMiss a j))
    {pick : ∀ r c, List (Murty.Node r c) → Nat} (hp : ∀ r c, PickOk (pick r c)) {B : ℚ}
    {ts tl : List (Nat × Tgt Pdf)} {rs rl : List Rpt} {o : LL}
    (hts : ∀ x ∈ ts, Fine k.mx x.2 ∧ 0 < idle s x ∧ δ - Real.log (idle s x) ≤ B)
    (h0 : 0 < tl.length) (h30 : tl.length ≤ 30)
    (ho : o = center (rs.map (fun z => z.1.x) ++ ts.map fun t => pos t.2.pdf))
    (htl : tl = ts.map fun t => (t.1, { t.2 with pdf := toLocal o t.2.pdf }))
    (hrl : rl = rs.map (rLocal o)) :
    ∃ (F : Nat) (v : Comp Pdf Rpt) (ε : ℝ) (c : Fin tl.length → Tgt Pdf) (D : Fin tl.length → ℝ),
      (∀ fuel, F ≤ fuel → compute (env k) (sensor k s) prm pick fuel ew ts rs = some v) ∧
      v.ts = List.ofFn (fun i => back (env k) (c i)) ∧
      (∀ i A, |(c i).r * (lawOf (c i).pdf.mix A).toReal - posterior s tl rl i A| ≤
        (rl.length + 1) * ε + (Real.exp (2 * tl.length * δ) - 1) +
        ((∏ k, (1 + rl.length * ((tl.get k).2.r / idle s (tl.get k) / 100000000))) - 1) + τ +
        (1 / 1000000 + D i)) ∧
      (∀ i, DropOk k (rl.length + 1) (tl.get i).2.pdf.mix.c.length (c i).pdf.mix.c (c i).r (D i)) ∧
      (∃ b : Fin rl.length → ℝ, v.rB = List.ofFn (fun j => some (b j)) ∧
        ∀ j, |b j - unclaimed s tl rl j| ≤ ε + (Real.exp (2 * tl.length * δ) - 1) +
        ((∏ k, (1 + rl.length * ((tl.get k).2.r / idle s (tl.get k) / 100000000))) - 1)) ∧
      0 < v.n ∧ ε ≤ 2 * spur tl.length B + ((rl.length + 2 : Nat) : ℝ) ^ tl.length / v.n ∧
      ((v.n : ℝ) < prm.nhypMax →
        ε ≤ 2 * spur tl.length B + ((rl.length + 2 : Nat) : ℝ) ^ tl.length * max 0 prm.wlim) := by
  have hδ : 0 ≤ δ := by
    rcases hlog 1 zero_le_one with ⟨h, _⟩ | ⟨_, q, _, h⟩
    · norm_num at h
    · exact (abs_nonneg _).trans h
  have hfine : ∀ i : Fin tl.length, Fine k.mx (tl.get i).2 ∧ 0 < idle s (tl.get i) ∧
      δ - Real.log (idle s (tl.get i)) ≤ B ∧ (tl.get i).2.pdf.origin = o := by
    suffices h : ∀ x ∈ tl, Fine k.mx x.2 ∧ 0 < idle s x ∧ δ - Real.log (idle s x) ≤ B ∧
        x.2.pdf.origin = o from fun i => h _ (List.get_mem _ _)
    intro x hx
    rw [htl] at hx
    obtain ⟨y, hy, rfl⟩ := List.mem_map.1 hx
    have hi := idle_toLocal hs (hts y hy).1 o
    obtain ⟨⟨h1, h2, h3⟩, h4, h5⟩ := hts y hy
    refine ⟨⟨h1, good_toLocal h2 _, ?_⟩, hi ▸ h4, hi ▸ h5, rfl⟩
    change cLocal o y.2.pdf.mix.c ≠ []
    simpa [cLocal] using h3
  -- the specification's numbers
  set R : Fin tl.length → ℝ := fun i => (tl.get i).2.r with hR
  set l : Fin tl.length → Fin rl.length → ℝ := fun i j =>
    (detected (s.pdDet (tl.get i).1 (rl.get j)) (rl.get j) (tl.get i).2.pdf.mix.c
      Set.univ).toReal with hl
  set q : Fin tl.length → ℝ := fun i =>
    (undetected (s.pdMiss (tl.get i).1) (tl.get i).2.pdf.mix.c Set.univ).toReal with hq
  have hWeq : (fun k => fateMass s rl (tl.get k) Set.univ) = lmbWeights R l q := by
    funext k f
    cases f <;> rfl
  -- the costs
  set det : Fin tl.length → Fin rl.length → XR := fun i j =>
    (sensor k s).detCost (tl.get i).1 (tl.get i).2.r (tl.get i).2.pdf (rl.get j) with hdet
  set miss : Fin tl.length → XR := fun i =>
    (sensor k s).missCost (tl.get i).1 (tl.get i).2.r (tl.get i).2.pdf with hmiss
  set fls : Fin tl.length → XR := fun i => (sensor k s).flsCost (tl.get i).2.r with hfls
  have hone : ∀ i, ((tl.get i).2.pdf.mix.c.map GM.Cmp.w).sum = 1 := fun i =>
    (hfine i).1.2.1.sum.resolve_left (hfine i).1.2.2
  have hcorr := fun i j => C68_correct (hs.det (tl.get i).1 (rl.get j)) (rl.get j)
    (tl.get i).2.pdf.mix (hfine i).1.2.1.cmp
  have heta : ∀ i j, (correctMix (s.pdDet (tl.get i).1 (rl.get j)) (rl.get j)
      (tl.get i).2.pdf.mix).eta = if 1 / 100000000 < l i j then l i j else 0 := by
    intro i j
    split
    · rename_i h
      exact ((hcorr i j).2.1 h).1
    · rename_i h
      exact ((hcorr i j).2.2 (not_lt.1 h)).1
  have hev : ∀ i, 1 - missedEta (s.pdMiss (tl.get i).1) (tl.get i).2.pdf.mix = q i := fun i =>
    C69_evidence (fun a => (hs.miss _ a).2) _ (hfine i).1.2.1.cmp (hone i)
  have hr0 : ∀ i, 0 ≤ R i := fun i => (hfine i).1.1.1
  have hr1 : ∀ i, R i ≤ 1 := fun i => (hfine i).1.1.2
  have hidle : ∀ i, idle s (tl.get i) = max (1 - R i) (R i * q i) := fun i => rfl
  have hpos : ∀ i, 0 < max (1 - R i) (R i * q i) := fun i => (hfine i).2.1
  have hBm : ∀ i, δ - Real.log (max (1 - R i) (R i * q i)) ≤ B := fun i => (hfine i).2.2.1
  have hl0 : ∀ i j, 0 ≤ l i j := fun i j => ENNReal.toReal_nonneg
  have hq0 : ∀ i, 0 ≤ q i := fun i => ENNReal.toReal_nonneg
  have hl0' : ∀ i j, 0 ≤ if 1 / 100000000 < l i j then l i j else 0 := by
    intro i j
    split
    · exact hl0 i j
    · exact le_refl _
  have nd : ∀ i j, Near δ (det i j) (R i * if 1 / 100000000 < l i j then l i j else 0) := by
    intro i j
    have : det i j = s.lg (R i * if 1 / 100000000 < l i j then l i j else 0) := by
      rw [← heta i j]; rfl
    rw [this]
    exact hlog _ (mul_nonneg (hr0 i) (hl0' i j))
  have nm : ∀ i, Near δ (miss i) (R i * q i) := by
    intro i
    have : miss i = s.lg (R i * q i) := by rw [← hev i]; rfl
    rw [this]
    exact hlog _ (mul_nonneg (hr0 i) (hq0 i))
  have nf : ∀ i, (R i < 1 → Near δ (fls i) (1 - R i)) ∧ (R i = 1 → fls i = XR.fin 30000) := by
    intro i
    constructor
    · intro h
      have : fls i = s.lg (1 - R i) := if_pos h
      rw [this]
      exact hlog _ (sub_nonneg.2 h.le)
    · intro h
      exact if_neg (not_lt.2 h.ge)
  have isC : ∀ {c w}, Near δ c w → XR.IsC c := by
    rintro c w (⟨_, h⟩ | ⟨_, q, h, _⟩)
    · exact Or.inl h
    · exact Or.inr ⟨q, h⟩
  have hfF : ∀ i, XR.IsFin (fls i) := by
    intro i
    rcases (hr1 i).lt_or_eq with h | h
    · rcases (nf i).1 h with ⟨h', _⟩ | ⟨_, q, h', _⟩
      · linarith
      · exact ⟨q, h'⟩
    · exact ⟨_, (nf i).2 h⟩
  have hB : ∀ i, ∃ q, (fls i = XR.fin q ∨ miss i = XR.fin q) ∧ q ≤ B := by
    intro i
    have key : ∀ {c w}, Near δ c w → max (1 - R i) (R i * q i) = w →
        ∃ q, c = XR.fin q ∧ q ≤ B := by
      rintro c w (⟨h, _⟩ | ⟨_, q, h, h2⟩) hw
      · have := hpos i; rw [hw, h] at this; exact absurd this (lt_irrefl _)
      · refine ⟨q, h, ?_⟩
        have h3 := (abs_le.1 h2).2
        have h4 := hBm i
        rw [hw] at h4
        have : (q : ℝ) ≤ B := by linarith
        exact_mod_cast this
    by_cases h : R i * q i ≤ 1 - R i
    · have hlt : R i < 1 := by
        have := hpos i
        rw [max_eq_left h] at this
        linarith
      obtain ⟨q, h1, h2⟩ := key ((nf i).1 hlt) (max_eq_left h)
      exact ⟨q, Or.inl h1, h2⟩
    · obtain ⟨q, h1, h2⟩ := key (nm i) (max_eq_right (not_le.1 h).le)
      exact ⟨q, Or.inr h1, h2⟩
  obtain ⟨F, a, ε, g1, g2, g3, g4, g5, g6, g7, _⟩ := C65_posterior (fun i j => isC (nd i j))
    (fun i => isC (nm i)) hfF hB h0 h30 (hp tl.length (rl.length + 2 * tl.length)) prm.wlim prm.nhypMax
  obtain ⟨core1, core2⟩ := core (ε := ε) hδ hτ0 hr0 hr1 hl0 hq0 hpos hBm nd nm nf
  have hb : Bnd a := hypotheses_bnd (fun x => (ew_pos x).le) (g1 F (le_refl _))
  have hws : a.wsum ≠ 0 := by
    intro h
    obtain ⟨x, hx, _⟩ := g2 ⟨0, h0⟩ (Fin.last _)
    simp [Acc.norm, h] at hx
  have hfin : ∀ (i : Fin tl.length) (j : Fin rl.length), a.R i j.castSucc ≠ 0 →
      1 / 100000000 < l i j := by
    intro i j hj
    obtain ⟨x, hx⟩ := hypotheses_finite (fun i j => isC (nd i j)) (fun i => isC (nm i))
      hfF h0 (hp _ _) (g1 F (le_refl _)) i j hj
    by_contra hc
    rcases nd i j with ⟨_, h⟩ | ⟨h, _⟩
    · rw [h] at hx; cases hx
    · rw [if_neg hc, mul_zero] at h
      exact lt_irrefl _ h
  have hx : ∀ i j, |a.R i j / a.wsum - bayes (weights det miss fls) fun e => e i = fateOf j| ≤ ε := by
    intro i j
    obtain ⟨x, hx, h⟩ := g2 i j
    simp only [Acc.norm, if_neg hws, Option.some.injEq] at hx
    rw [hx]
    exact h
  set c : Fin tl.length → Tgt Pdf := fun i => corrected (env k) (sensor k s) (tl.get i).1
    (tl.get i).2 rl (List.ofFn fun j => a.R i j / a.wsum) (a.rowSum i) with hc
  -- `join`
  set ps : Fin tl.length → List Pdf := fun i =>
    rl.map ((sensor k s).upd (tl.get i).1 (tl.get i).2.pdf) ++
      [(sensor k s).missPdf (tl.get i).1 (tl.get i).2.pdf] with hps
  have pl : ∀ i, rl.length + 1 = (ps i).length := by intro i; simp [hps]
  have gps : ∀ i, ∀ p ∈ ps i, Good k.mx p := by
    intro i p hp
    rcases List.mem_append.1 hp with hp | hp
    · obtain ⟨z, _, rfl⟩ := List.mem_map.1 hp
      exact good_correct (hfine i).1.2.1 (hs.det _ _) z
    · rw [List.mem_singleton] at hp
      subst hp
      exact good_missed (hfine i).1.2.1 _
  have ps_j : ∀ i (j : Fin rl.length), ((ps i)[j.val]'(by have := pl i; omega)).mix =
      correctMix (s.pdDet (tl.get i).1 (rl.get j)) (rl.get j) (tl.get i).2.pdf.mix := by
    intro i j
    simp only [hps]
    rw [List.getElem_append_left (by simp), List.getElem_map]
    rfl
  have ps_m : ∀ i, ((ps i)[rl.length]'(by have := pl i; omega)).mix.c =
      (tl.get i).2.pdf.mix.c := by
    intro i
    simp only [hps]
    rw [List.getElem_append_right (by simp)]
    simp only [List.length_map, Nat.sub_self, List.getElem_singleton]
    rfl
  have hmass1 : ∀ i, ∀ p ∈ ps i, ∀ A, 0 ≤ massR p.mix.c A ∧ massR p.mix.c A ≤ 1 := by
    intro i p hp A
    obtain ⟨m1, m2⟩ := massR_range (fun g hg => ((gps i p hp).cmp g hg).1) A
    refine ⟨m1, m2.trans ?_⟩
    rcases (gps i p hp).sum with h | h
    · rw [h]; simp
    · rw [h]
  have hjoin : ∀ i, ∃ dr : ℝ,
      DropOk k (rl.length + 1) (tl.get i).2.pdf.mix.c.length (c i).pdf.mix.c (c i).r dr ∧
      ∀ A, |(c i).r * (lawOf (c i).pdf.mix A).toReal -
        ∑ j : Fin (rl.length + 1), (a.R i j / a.wsum) *
          massR ((ps i)[j.val]'(by have := pl i; omega)).mix.c A| ≤
          1 / 1000000 + dr := by
    intro i
    have hrow : a.rowSum i = some (∑ j, a.R i j / a.wsum) := by simp [Acc.rowSum, hws]
    by_cases hbig : (1 : ℝ) / 1000000 ≤ ∑ j, a.R i j / a.wsum
    · have hres : targetCorrect (a.rowSum i) (1 / 1000000) = (∑ j, a.R i j / a.wsum, true) := by
        rw [hrow]; unfold targetCorrect; simp only [if_pos hbig]
      have e1 : (c i).r = (List.ofFn fun j => a.R i j / a.wsum).sum := by
        simp only [hc, corrected, hres, List.sum_ofFn]
      have e2 : (c i).pdf = joinPdf k (tl.get i).2.pdf (List.ofFn fun j => a.R i j / a.wsum)
          (ps i) := by
        simp only [hc, corrected, hres, if_true]
        rfl
      rw [e1, e2]
      obtain ⟨dr, d2, d3⟩ := join_mass hk (tl.get i).2.pdf
        (List.ofFn fun j => a.R i j / a.wsum) (ps i) (by rw [List.length_ofFn]; exact pl i) (by
          intro x hx
          simp only [List.mem_ofFn, Set.mem_range] at hx
          obtain ⟨j, rfl⟩ := hx
          exact (hb.row i j).1) (fun p hp => (gps i p hp).cmp) (by
          intro y hy
          obtain ⟨j, hj, rfl⟩ := List.mem_iff_getElem.1 hy
          simp only [List.length_zip, List.length_ofFn, List.length_map, ← pl i,
            Nat.min_self] at hj
          simp only [List.getElem_zip, List.getElem_ofFn, List.getElem_map]
          by_cases hjl : j < rl.length
          · by_cases hR : a.R i (Fin.castSucc ⟨j, hjl⟩) = 0
            · left
              change a.R i (Fin.castSucc ⟨j, hjl⟩) / a.wsum = 0
              rw [hR, zero_div]
            · right
              rw [ps_j i ⟨j, hjl⟩]
              refine (correctMix_eta (hfine i).1.2.1 (hs.det _ _) _).2 ?_
              rw [heta, if_pos (hfin i _ hR)]
              exact (lt_trans (by norm_num) (hfin i _ hR)).ne'
          · right
            have : j = rl.length := by omega
            subst this
            rw [ps_m i]
            exact hone i) (l := (tl.get i).2.pdf.mix.c.length) (by
          intro p hp
          rcases List.mem_append.1 hp with hp | hp
          · obtain ⟨z, _, rfl⟩ := List.mem_map.1 hp
            exact correctMix_length _ _ _
          · rw [List.mem_singleton] at hp
            subst hp
            exact le_refl _)
      rw [← pl i] at d2
      refine ⟨dr, d2, fun A => ?_⟩
      have := d3 A
      rw [zip_sum _ _ (pl i) fun p => massR p.mix.c A] at this
      refine this.trans ?_
      gcongr
      norm_num
    · have hres : targetCorrect (a.rowSum i) (1 / 1000000) = (0, false) := by
        rw [hrow]; unfold targetCorrect; simp only [if_neg hbig]
      have e1 : (c i).r = 0 := by simp only [hc, corrected, hres]
      refine ⟨0, ⟨le_refl _, e1.ge, fun _ => by rw [e1, mul_zero], fun _ => by rw [e1, mul_zero]⟩, fun A => ?_⟩
      rw [e1, zero_mul, zero_sub, abs_neg]
      have h1 : ∀ j : Fin (rl.length + 1), 0 ≤ (a.R i j / a.wsum) *
          massR ((ps i)[j.val]'(by have := pl i; omega)).mix.c A := fun j =>
        mul_nonneg (hb.row i j).1 (hmass1 i _ (List.getElem_mem _) A).1
      rw [abs_of_nonneg (Finset.sum_nonneg fun j _ => h1 j)]
      have h2 : ∑ j : Fin (rl.length + 1), (a.R i j / a.wsum) *
          massR ((ps i)[j.val]'(by have := pl i; omega)).mix.c A ≤ ∑ j, a.R i j / a.wsum :=
        Finset.sum_le_sum fun j _ =>
          mul_le_of_le_one_right (hb.row i j).1 (hmass1 i _ (List.getElem_mem _) A).2
      rw [add_zero]
      exact h2.trans (not_le.1 hbig).le
  choose d hd2 hd3 using hjoin
  -- the exact posterior as an average
  have hpost : ∀ i A, ∃ g g' : Fate rl.length → ℝ, (∀ f, 0 ≤ g f ∧ g f ≤ 1) ∧
      (∀ f, |g f - g' f| ≤ τ) ∧
      (∀ j : Fin (rl.length + 1), g (fateOf j) * (a.R i j / a.wsum) = (a.R i j / a.wsum) *
        massR ((ps i)[j.val]'(by have := pl i; omega)).mix.c A) ∧
      posterior s tl rl i A = avg (lmbWeights R l q) (ofFate i g') := by
    intro i A
    set D : Fin rl.length → Set (Fin 4 → ℝ) → ℝ := fun j A =>
      (detected (s.pdDet (tl.get i).1 (rl.get j)) (rl.get j) (tl.get i).2.pdf.mix.c A).toReal with hD
    set U : Set (Fin 4 → ℝ) → ℝ := fun A =>
      (undetected (s.pdMiss (tl.get i).1) (tl.get i).2.pdf.mix.c A).toReal with hU
    have hDl : ∀ j, 0 ≤ D j A ∧ D j A ≤ l i j := fun j =>
      ⟨ENNReal.toReal_nonneg, ENNReal.toReal_mono (hcorr i j).1 (measure_mono (Set.subset_univ A))⟩
    have hcw : ∀ g ∈ (tl.get i).2.pdf.mix.c, 0 ≤ g.w := fun g hg => ((hfine i).1.2.1.cmp g hg).1
    have hUq : 0 ≤ U A ∧ U A ≤ q i :=
      ⟨ENNReal.toReal_nonneg, ENNReal.toReal_mono
        (undetected_real (fun a => (hs.miss _ a).2) hcw _).1 (measure_mono (Set.subset_univ A))⟩
    have hgap : |q i * massR (tl.get i).2.pdf.mix.c A - U A| ≤ τ * q i :=
      missed_gap (hτ (tl.get i).1) (fun a => (hs.miss _ a).2) hcw (hone i) A
    refine ⟨fun f => match f with
      | .report j => D j A / l i j
      | .missed => massR (tl.get i).2.pdf.mix.c A
      | .absent => 0, fun f => match f with
      | .report j => D j A / l i j
      | .missed => if q i = 0 then massR (tl.get i).2.pdf.mix.c A else U A / q i
      | .absent => 0, ?_, ?_, ?_, ?_⟩
    · intro f
      cases f with
      | report j => exact ⟨div_nonneg (hDl j).1 (hl0 i j), div_le_one_of_le₀ (hDl j).2 (hl0 i j)⟩
      | missed =>
        obtain ⟨m1, m2⟩ := massR_range hcw A
        rw [hone i] at m2
        exact ⟨m1, m2⟩
      | absent => exact ⟨le_refl _, zero_le_one⟩
    · intro f
      cases f with
      | report j => simpa using hτ0
      | missed =>
        by_cases h : q i = 0
        · simpa [h] using hτ0
        · have hpos : 0 < q i := lt_of_le_of_ne (hq0 i) (Ne.symm h)
          simp only [if_neg h]
          have e : massR (tl.get i).2.pdf.mix.c A - U A / q i =
              (q i * massR (tl.get i).2.pdf.mix.c A - U A) / q i := by field_simp
          rw [e, abs_div, abs_of_pos hpos, div_le_iff₀ hpos]
          exact hgap
      | absent => simpa using hτ0
    · intro j
      rcases Fin.eq_castSucc_or_eq_last j with ⟨j, rfl⟩ | rfl
      · have hfo : fateOf j.castSucc = (.report j : Fate rl.length) := by simp [fateOf]
        rw [hfo]
        by_cases hR : a.R i j.castSucc = 0
        · rw [hR, zero_div, mul_zero, zero_mul]
        · have hbig := hfin i j hR
          have e1 := (hcorr i j).2.1 hbig
          simp only
          rw [mul_comm]
          congr 1
          change D j A / l i j = massR ((ps i)[j.val]'_).mix.c A
          rw [ps_j i j, ← (lawOf_real (fun g hg => ?_) A).2, e1.2, Measure.smul_apply, smul_eq_mul,
            ENNReal.toReal_mul, ENNReal.toReal_inv]
          · change D j A / l i j = (l i j)⁻¹ * D j A
            rw [div_eq_inv_mul]
          · have := gps i _ (List.getElem_mem (l := ps i) (n := j.val) (by have := pl i; omega))
            have h2 := this.cmp
            rw [ps_j i j] at h2
            exact (h2 g hg).1
      · have hfo : fateOf (Fin.last rl.length) = (.missed : Fate rl.length) := by simp [fateOf]
        rw [hfo]
        simp only [Fin.val_last]
        rw [ps_m i, mul_comm]
    · unfold posterior avg
      rw [hWeq]
      congr 1
      have hset : (fun k => fateMass s rl (tl.get k) (if k = i then A else Set.univ)) =
          setRow (lmbWeights R l q) i (fateMass s rl (tl.get i) A) := by
        funext k f
        unfold setRow
        by_cases h : k = i
        · subst h
          simp only [if_true]
        · simp only [if_neg h]
          exact congrFun (congrFun hWeq k) f
      rw [hset]
      apply evidence_setRow
      intro f hf
      cases f with
      | report j =>
        change R i * D j A = D j A / l i j * (R i * l i j)
        by_cases h : l i j = 0
        · have : D j A = 0 := le_antisymm (h ▸ (hDl j).2) (hDl j).1
          rw [this]; simp
        · field_simp
      | missed =>
        change R i * U A = (if q i = 0 then _ else U A / q i) * (R i * q i)
        by_cases h : q i = 0
        · have : U A = 0 := le_antisymm (h ▸ hUq.2) hUq.1
          rw [this, h]; simp
        · rw [if_neg h]
          field_simp
      | absent => exact absurd rfl hf
  refine ⟨F, ⟨a.n, List.ofFn fun i => back (env k) (c i), rl.map (rGlobal o), List.ofFn a.rB⟩,
    ε + spur tl.length B, c, d, ?_, rfl, ?_, hd2, ?_, g5, by linarith,
    fun h => by linarith [g7 h]⟩
  · intro fuel hfuel
    have e : compute (env k) (sensor k s) prm pick fuel ew ts rs =
        if tl.length = 0 then some ⟨0, [], rl.map (rGlobal o), rl.map fun _ => some 1⟩
        else match hypotheses (pick _ _) fuel ew prm.wlim prm.nhypMax (costMatrix det miss fls) with
        | none => none
        | some a =>
          if a.n = 0 then some ⟨0, tl.map fun t => back (env k) t.2, rl.map (rGlobal o),
            rl.map fun _ => some 1⟩
          else some ⟨a.n, List.ofFn fun i => back (env k) (corrected (env k) (sensor k s)
            (tl.get i).1 (tl.get i).2 rl (List.ofFn fun j => a.R i j / a.wsum) (a.rowSum i)),
            rl.map (rGlobal o), List.ofFn a.rB⟩ := by
      exact compute_eq ho htl hrl
    rw [e, if_neg h0.ne', g1 fuel hfuel]
    simp only [if_neg g5.ne', hc]
  · intro i A
    obtain ⟨g, g', p1, p2, p3, p4⟩ := hpost i A
    have b1 := core1 i (fun j => a.R i j / a.wsum) g g' (hx i) p1 p2
    have b2 := hd3 i A
    have hsp := spur_nonneg tl.length B
    have hsn : spur tl.length B ≤ (rl.length + 1) * spur tl.length B := by
      have : (0 : ℝ) ≤ rl.length := Nat.cast_nonneg _
      nlinarith
    simp only [hidle]
    rw [p4]
    rw [Finset.sum_congr rfl fun j _ => p3 j] at b1
    rw [abs_le] at *
    rw [mul_add]
    constructor <;> linarith [b1.1, b1.2, b2.1, b2.2]
  · refine ⟨fun j => 1 - ∑ i, a.R i j.castSucc / a.wsum, ?_, ?_⟩
    · have : a.rB = fun j => some (1 - ∑ i, a.R i j.castSucc / a.wsum) := by
        funext j
        simp only [Acc.rB, if_neg hws]
      rw [this]
    · intro j
      dsimp only
      obtain ⟨b, hb1, hb2⟩ := g4 j
      simp only [Acc.rB, if_neg hws, Option.some.injEq] at hb1
      rw [hb1]
      have := core2 fun e => ∀ i, e i ≠ .report j
      unfold unclaimed
      simp only [hidle]
      rw [hWeq]
      change |b - bayes _ _| ≤ _
      rw [abs_le] at *
      constructor <;> linarith [this.1, this.2, hb2.1, hb2.2]

/-! ## A concrete case -/

theorem exSens_near (x : ℝ) (hx : 0 ≤ x) : Near (1 / 2 ^ 40) (exSens.lg x) x := by
  rcases hx.lt_or_eq with h | h
  · refine Or.inr ⟨h, _, if_pos h, ?_⟩
    have h1 := Int.floor_le (-Real.log x * 2 ^ 40)
    have h2 := Int.lt_floor_add_one (-Real.log x * 2 ^ 40)
    push_cast
    rw [abs_le]
    have e : ((⌊-Real.log x * 2 ^ 40⌋ : ℝ) / 2 ^ 40 + Real.log x) =
        ((⌊-Real.log x * 2 ^ 40⌋ : ℝ) - -Real.log x * 2 ^ 40) / 2 ^ 40 := by field_simp; ring
    rw [e, ← neg_div, div_le_div_iff_of_pos_right (by positivity),
      div_le_div_iff_of_pos_right (by positivity)]
    constructor <;> linarith
  · exact Or.inl ⟨h.symm, h ▸ if_neg (lt_irrefl _)⟩

/-- A target with two components and existence probability 1/2. -/
noncomputable def exTgt (id : Nat) : Tgt Pdf :=
  ⟨id, 1 / 2, ⟨⟨exTwo.c, 1⟩, 0, Box.zero⟩, 0, 'b'⟩

theorem exTgt_fine (id : Nat) : Fine exOpts.mx (exTgt id) ∧ 0 < idle exSens (id, exTgt id) ∧
    1 / 2 ^ 40 - Real.log (idle exSens (id, exTgt id)) ≤ ((2 : ℚ) : ℝ) := by
  have hge : 1 - 1 / 2 ≤ idle exSens (id, exTgt id) := le_max_left _ _
  refine ⟨⟨⟨?_, ?_⟩, ⟨exTwo_good, ?_, Or.inr ?_⟩, ?_⟩, ?_, ?_⟩
  · show (0 : ℝ) ≤ 1 / 2; norm_num
  · show (1 : ℝ) / 2 ≤ 1; norm_num
  · show 2 ≤ 200; norm_num
  · simp [exTgt, exTwo]; norm_num
  · simp [exTgt, exTwo]
  · linarith
  · have hl := Real.log_le_log (by norm_num : (0 : ℝ) < 1 - 1 / 2) hge
    refine (sub_le_sub_left hl _).trans ?_
    have h := Real.log_le_sub_one_of_pos (show (0 : ℝ) < 2 by norm_num)
    have e : Real.log (1 - 1 / 2) = -Real.log 2 := by
      rw [← Real.log_inv]; norm_num
    rw [e]
    norm_num
    norm_num at h
    linarith

/-- Two targets and two reports: the tracker's answer is near the exact posterior, for all sets of
states. -/
example := C72_cluster exOpts_ok.srt exPrm exSens_ok exSens_near (le_refl 0)
  (fun _ _ _ => by simp [exSens]) exCh_pick (ts := [(0, exTgt 0), (1, exTgt 1)])
  (rs := [exRpt 0 0, exRpt 0 1]) (B := 2)
  (by
    intro x hx
    simp only [List.mem_cons, List.not_mem_nil, or_false] at hx
    rcases hx with rfl | rfl <;> exact exTgt_fine _)
  (by simp) (by simp) rfl rfl rfl

/-- A target that is known to exist. -/
noncomputable def exSure (id : Nat) : Tgt Pdf := { exTgt id with r := 1 }

theorem exSure_fine (id : Nat) : Fine exOpts.mx (exSure id) ∧ 0 < idle exSens (id, exSure id) ∧
    1 / 2 ^ 40 - Real.log (idle exSens (id, exSure id)) ≤ ((10 : ℚ) : ℝ) := by
  have hge : 1 / 10 ≤ idle exSens (id, exSure id) := by
    refine le_trans (le_of_eq ?_) (le_max_right _ _)
    have := C69_evidence (pd := fun _ => 9 / 10) (fun _ => by norm_num) exTwo exTwo_good
      (by simp [exTwo]; norm_num)
    change 1 / 10 = 1 * (undetected (fun _ => 9 / 10) exTwo.c Set.univ).toReal
    rw [← this]
    simp [missedEta, exTwo]
    norm_num
  obtain ⟨⟨_, h2, h3⟩, _⟩ := exTgt_fine id
  refine ⟨⟨⟨?_, ?_⟩, h2, h3⟩, by linarith, ?_⟩
  · show (0 : ℝ) ≤ 1; norm_num
  · show (1 : ℝ) ≤ 1; norm_num
  · have hl := Real.log_le_log (by norm_num : (0 : ℝ) < 1 / 10) hge
    refine (sub_le_sub_left hl _).trans ?_
    have h := Real.log_le_sub_one_of_pos (show (0 : ℝ) < 10 by norm_num)
    rw [one_div (10 : ℝ), Real.log_inv]
    norm_num
    norm_num at h
    linarith

/-- One target that is known to exist and one that may exist. -/
example := C72_cluster exOpts_ok.srt exPrm exSens_ok exSens_near (le_refl 0)
  (fun _ _ _ => by simp [exSens]) exCh_pick (ts := [(0, exSure 0), (1, exTgt 1)])
  (rs := [exRpt 0 0, exRpt 0 1]) (B := 10)
  (by
    intro x hx
    simp only [List.mem_cons, List.not_mem_nil, or_false] at hx
    rcases hx with rfl | rfl
    · exact exSure_fine _
    · exact ⟨(exTgt_fine 1).1, (exTgt_fine 1).2.1, (exTgt_fine 1).2.2.trans (by norm_num)⟩)
  (by simp) (by simp) rfl rfl rfl

end Verif.System
