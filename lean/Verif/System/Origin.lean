import Verif.System.Units

/-!
# C98: where the local frames of targets and clusters are

Targets are predicted in the frame of their mean position, clusters corrected in that of the average
position of their targets and reports (`target.hpp:150-160`, `cluster.hpp:156-162`).  Both are averages
of latitudes and longitudes.
-/

namespace Verif.System

open Verif.Tracker Matrix
open Verif.Murty (Node)

/-! ## Between the members -/

theorem sum_between (l : List LL) (i : Fin 2) (lo hi : ℝ) (h : ∀ p ∈ l, lo ≤ p i ∧ p i ≤ hi) :
    l.length * lo ≤ l.sum i ∧ l.sum i ≤ l.length * hi := by
  induction l with
  | nil => simp
  | cons p l ih =>
    obtain ⟨h1, h2⟩ := ih fun q hq => h q (List.mem_cons_of_mem _ hq)
    obtain ⟨h3, h4⟩ := h p List.mem_cons_self
    rw [List.sum_cons, Pi.add_apply, List.length_cons]
    push_cast
    constructor <;> linarith

/-- **C98** The origin of a cluster is between its members: latitude and longitude are at least the
least and at most the greatest of its targets and reports. -/
theorem C98_cluster (l : List LL) (hl : l ≠ []) (i : Fin 2) (lo hi : ℝ)
    (h : ∀ p ∈ l, lo ≤ p i ∧ p i ≤ hi) : lo ≤ center l i ∧ center l i ≤ hi := by
  obtain ⟨h1, h2⟩ := sum_between l i lo hi h
  have hn : (0 : ℝ) < l.length := by
    have := List.length_pos_iff.2 hl
    exact_mod_cast this
  unfold center
  rw [Pi.smul_apply, smul_eq_mul, one_div, inv_mul_eq_div, le_div_iff₀ hn, div_le_iff₀ hn]
  constructor <;> linarith

example : (56 : ℝ) ≤ center [![56, 15], ![58, 16], ![57, 14]] 0 ∧
    center [![56, 15], ![58, 16], ![57, 14]] 0 ≤ 58 := by
  refine C98_cluster _ (by simp) 0 56 58 ?_
  intro p hp
  simp only [List.mem_cons, List.not_mem_nil, or_false] at hp
  rcases hp with rfl | rfl | rfl <;> norm_num

theorem mean_between (c : List Cmp) (i : Fin 4) (lo hi : ℝ) (hw : ∀ g ∈ c, 0 ≤ g.w)
    (h : ∀ g ∈ c, lo ≤ g.x.1 i ∧ g.x.1 i ≤ hi) :
    (c.map GM.Cmp.w).sum * lo ≤ Kalman.mean (c.map toG) i ∧
      Kalman.mean (c.map toG) i ≤ (c.map GM.Cmp.w).sum * hi := by
  rw [Kalman.mean_eq]
  induction c with
  | nil => simp
  | cons g c ih =>
    obtain ⟨h1, h2⟩ := ih (fun q hq => hw q (List.mem_cons_of_mem _ hq))
      fun q hq => h q (List.mem_cons_of_mem _ hq)
    obtain ⟨h3, h4⟩ := h g List.mem_cons_self
    have h5 := hw g List.mem_cons_self
    simp only [List.map_cons, List.sum_cons, Pi.add_apply]
    have e : ((toG g).w • (toG g).x) i = g.w * g.x.1 i := rfl
    rw [e, add_mul, add_mul]
    constructor
    · nlinarith
    · nlinarith

/-- **C98** After any history the origin of the frame in which a target is predicted is between its
components. -/
theorem C98_target {k : Opts} (hk : OptsOk k) {prm : Params} (hB0 : 0 ≤ prm.rBmax)
    (hB1 : prm.rBmax ≤ 1) {calls : List (Call Pdf Rpt)} (hc : ∀ c ∈ calls, SysCall k prm c)
    {fuel : Nat} {s : St Pdf} (e : run (env k) prm fuel calls St.empty = some s) {a : Nat}
    {t : Tgt Pdf} (ht : s.heap a = some t) (lo hi : LL)
    (h : ∀ g ∈ t.pdf.mix.c, (lo 0 ≤ g.x.1 0 ∧ g.x.1 0 ≤ hi 0) ∧ (lo 1 ≤ g.x.1 1 ∧ g.x.1 1 ≤ hi 1)) :
    ∀ i, lo i ≤ pos t.pdf i ∧ pos t.pdf i ≤ hi i := by
  have hg := C66_densities_proper hk hB0 hB1 hc e a t ht
  have hw : ∀ g ∈ t.pdf.mix.c, 0 ≤ g.w := fun g hgm => (hg.2.2.2.1 g hgm).1
  have h0 := mean_between t.pdf.mix.c 0 (lo 0) (hi 0) hw fun g hgm => (h g hgm).1
  have h1 := mean_between t.pdf.mix.c 1 (lo 1) (hi 1) hw fun g hgm => (h g hgm).2
  rw [hg.2.2.2.2.1, one_mul, one_mul] at h0 h1
  intro i
  fin_cases i
  · exact h0
  · exact h1

example : ∃ s a t, run (env exOpts) exPrm 0 (exHist.take 1) St.empty = some s ∧
    s.heap a = some t ∧ ∃ lo hi : LL, ∀ i, lo i ≤ pos t.pdf i ∧ pos t.pdf i ≤ hi i := by
  obtain ⟨s, a, t, g, h1, h2, _, h3, _⟩ := exNewborn
  refine ⟨s, a, t, h1, h2, head g.x.1, head g.x.1, ?_⟩
  refine C98_target exOpts_ok (prm := exPrm) (by show (0 : ℝ) ≤ 4 / 5; norm_num)
    (by show (4 : ℝ) / 5 ≤ 1; norm_num) (fun c h => exHist_ok c (List.mem_of_mem_take h)) h1 h2 _ _ ?_
  intro g' hg'
  rw [h3, List.mem_singleton] at hg'
  subst hg'
  exact ⟨⟨le_refl _, le_refl _⟩, ⟨le_refl _, le_refl _⟩⟩

/-! ## Not near them: the antimeridian -/

theorem moved_far (ε : ℝ) : moved (180 - ε) = moved ε := by
  unfold moved CF.sind
  rw [show (180 - ε) * Real.pi / 180 = Real.pi - ε * Real.pi / 180 from by ring, Real.sin_pi_sub]

theorem moved_range {ε : ℝ} (h0 : 0 < ε) (h1 : ε ≤ 90) : 0 < moved ε ∧ moved ε ≤ ε := by
  have hpi := Real.pi_pos
  have hx : 0 < ε * Real.pi / 180 := by positivity
  have hs0 : 0 < CF.sind ε := Real.sin_pos_of_pos_of_lt_pi hx (by nlinarith)
  have hs1 : CF.sind ε ≤ ε * Real.pi / 180 := Real.sin_le hx.le
  unfold moved
  have ha : 0 < Real.arctan (CF.sind ε) := Real.arctan_pos.2 hs0
  have hb := (CF.arctan_le_self hs0.le).trans hs1
  refine ⟨by positivity, ?_⟩
  rw [div_le_iff₀ hpi]
  linarith

/-- **C98 refuted for targets** A target at rest with one component on each side of the antimeridian,
`ε` degrees from it, is moved to the other side of the earth by one prediction: all its components are
then within `ε` degrees of longitude 0. -/
theorem C98_antimeridian_refuted (k : Opts) {ε : ℝ} (h0 : 0 < ε) (h1 : ε ≤ 90) :
    (∀ g ∈ (exSpread (180 - ε)).pdf.mix.c, g.x.1 0 = 0 ∧ |g.x.1 1| = 180 - ε ∧ g.x.1 2 = 0 ∧
      g.x.1 3 = 0) ∧
    (predictTgt (env k) (cv 1 1 1) (exSpread (180 - ε))).pdf.mix.c.length = 2 ∧
    ∀ g ∈ (predictTgt (env k) (cv 1 1 1) (exSpread (180 - ε))).pdf.mix.c,
      g.x.1 0 = 0 ∧ |g.x.1 1| ≤ ε := by
  obtain ⟨m0, m1⟩ := moved_range h0 h1
  refine ⟨?_, ?_, ?_⟩
  · intro g hg
    simp only [exSpread, List.mem_cons, List.not_mem_nil, or_false] at hg
    rcases hg with rfl | rfl
    · refine ⟨rfl, ?_, rfl, rfl⟩
      show |180 - ε| = _
      exact abs_of_nonneg (by linarith)
    · refine ⟨rfl, ?_, rfl, rfl⟩
      show |-(180 - ε)| = _
      rw [abs_neg]
      exact abs_of_nonneg (by linarith)
  · rw [(exSpread_predict k _).2]
    rfl
  · intro g hg
    rw [(exSpread_predict k _).2, moved_far] at hg
    simp only [List.mem_cons, List.not_mem_nil, or_false] at hg
    rcases hg with rfl | rfl
    · refine ⟨rfl, ?_⟩
      show |moved ε| ≤ ε
      rw [abs_of_pos m0]; exact m1
    · refine ⟨rfl, ?_⟩
      show |-moved ε| ≤ ε
      rw [abs_neg, abs_of_pos m0]; exact m1

/-- A hundredth of a degree, a kilometre, from the antimeridian. -/
example := C98_antimeridian_refuted exOpts (ε := 1 / 100) (by norm_num) (by norm_num)

/-- The reports of a cluster after its correction. -/
theorem compute_rs {P R O : Type} {E : Env P R O} {S : Sensor P R} {prm : Params}
    {pick : ∀ r c, List (Node r c) → Nat} {fuel : Nat} {wt : ℚ → ℝ} {ts : List (Nat × Tgt P)}
    {rs : List R} {v : Comp P R} (e : compute E S prm pick fuel wt ts rs = some v) :
    v.rs = rs.map fun z => E.rGlobal (E.center (rs.map E.rpos ++ ts.map fun t => E.pos t.2.pdf))
      (E.rLocal (E.center (rs.map E.rpos ++ ts.map fun t => E.pos t.2.pdf)) z) := by
  unfold compute at e
  simp only at e
  set o := E.center (rs.map E.rpos ++ ts.map fun t => E.pos t.2.pdf)
  have hm : (rs.map (E.rLocal o)).map (E.rGlobal o) = rs.map fun z => E.rGlobal o (E.rLocal o z) := by
    rw [List.map_map]; rfl
  by_cases h0 : (ts.map fun t => (t.1, forth E o t.2)).length = 0
  · rw [if_pos h0] at e
    obtain rfl := Option.some.inj e
    exact hm
  · rw [if_neg h0] at e
    generalize Hyp.hypotheses (pick _ _) fuel wt prm.wlim prm.nhypMax _ = H at e
    cases H with
    | none => cases e
    | some a =>
      simp only at e
      by_cases hn : a.n = 0
      · rw [if_pos hn] at e
        obtain rfl := Option.some.inj e
        exact hm
      · rw [if_neg hn] at e
        obtain rfl := Option.some.inj e
        exact hm

/-- **C98 refuted for clusters** A cluster on the equator of one target and one report, on both sides of
the antimeridian and `ε` degrees from it: the correction leaves the report on the other side of the
earth, within `ε` degrees of longitude 0, and a new target is created there.  Whatever the sensor, the
covariances and the weights. -/
theorem C98_report_refuted (k : Opts) (S : Sensor Pdf Rpt) (prm : Params)
    (pick : ∀ r c, List (Node r c) → Nat) (fuel : Nat) (wt : ℚ → ℝ) {ε : ℝ} (h0 : 0 < ε)
    (h1 : ε ≤ 90) {t : Tgt Pdf} (ht : pos t.pdf = ![0, 180 - ε]) {z : Rpt}
    (hz : z.1.x = ![0, -(180 - ε)]) {a : Nat} {v : Comp Pdf Rpt}
    (e : compute (env k) S prm pick fuel wt [(a, t)] [z] = some v) :
    ∃ z', v.rs = [z'] ∧ z'.1.x 0 = 0 ∧ |z'.1.x 1| ≤ ε ∧
      ∀ pv, pos (initPdf k pv z') 0 = 0 ∧ |pos (initPdf k pv z') 1| ≤ ε := by
  obtain ⟨m0, m1⟩ := moved_range h0 h1
  have hrs := compute_rs e
  have ho : (env k).center ([z].map (env k).rpos ++ [(a, t)].map fun t => (env k).pos t.2.pdf) =
      ![0, 0] := by
    show center ([z.1.x] ++ [pos t.pdf]) = _
    rw [ht, hz]
    unfold center
    ext i
    fin_cases i <;> simp
  rw [ho] at hrs
  have hx : (rGlobal ![0, 0] (rLocal ![0, 0] z)).1.x = ![0, -moved ε] := by
    show CF.ne2ll (CF.ll2ne z.1.x ![0, 0]) ![0, 0] = _
    rw [hz, ll2ne_equator, ne2ll_equator, moved_neg, moved_far]
  have hab : |(-moved ε)| ≤ ε := by rw [abs_neg, abs_of_pos m0]; exact m1
  refine ⟨rGlobal ![0, 0] (rLocal ![0, 0] z), hrs, ?_, ?_, ?_⟩
  · rw [hx]; rfl
  · rw [hx]; exact hab
  · intro pv
    have hp : pos (initPdf k pv (rGlobal ![0, 0] (rLocal ![0, 0] z))) = ![0, -moved ε] := by
      obtain ⟨y, hy⟩ : ∃ y, y = -moved ε := ⟨_, rfl⟩
      rw [← hy] at hx hab ⊢
      have hp1 : pos ⟨⟨[ofG (Kalman.init1 pv (rGlobal ![0, 0] (rLocal ![0, 0] z)).1)], 0⟩, 0,
          Box.zero⟩ = ![0, y] := by
        unfold pos
        rw [Kalman.mean_eq]
        ext i
        fin_cases i <;> simp [toG, ofG, head, Kalman.init1, hx]
      have hy1 := abs_le.1 hab
      have hr : CF.ne2ll (CF.ll2ne ![0, y] ![0, y]) ![0, y] = ![0, y] :=
        CF.C57_origin y (by linarith) (by linarith)
      unfold initPdf
      simp only
      rw [hp1]
      unfold pos
      rw [Kalman.mean_eq]
      have hh : ∀ p x, head (setHead p x) = p := by
        intro p x
        ext i
        fin_cases i <;> rfl
      have hi : head (Kalman.init1 pv (rGlobal ![0, 0] (rLocal ![0, 0] z)).1).x = ![0, y] := by
        show ![_, _] = _
        simp only [Kalman.init1, hx]
        rfl
      simp only [toGlobal, toLocal, cGlobal, cLocal, List.map_cons, List.map_nil, List.sum_cons,
        List.sum_nil, add_zero, toG, ofG, hh, hi, hr]
      rw [show (Kalman.init1 pv (rGlobal ![0, 0] (rLocal ![0, 0] z)).1).w = 1 from rfl, one_smul, hh]
    rw [hp]
    exact ⟨rfl, hab⟩

/-- The position sensor and the default parameters, one degree from the antimeridian. -/
example : ∃ fuel v z', compute (env exOpts) (sensor exOpts exSens) exPrm exCh.pick fuel exCh.wt
    [(0, ⟨0, 1 / 2, ⟨⟨[⟨(![0, 179, 0, 0], 1), 1⟩], 1⟩, 0, Box.zero⟩, 0, 'b'⟩)] [exRpt 0 (-179)] = some v ∧
    v.rs = [z'] ∧ |z'.1.x 1| ≤ 1 := by
  obtain ⟨F, v, h⟩ := compute_total (E := env exOpts) (exHist_costs _ List.mem_cons_self).1 exPrm exCh_pick exCh.wt
    [(0, ⟨0, 1 / 2, ⟨⟨[⟨(![0, 179, 0, 0], 1), 1⟩], 1⟩, 0, Box.zero⟩, 0, 'b'⟩)] [exRpt 0 (-179)] (by simp)
  obtain ⟨z', h1, _, h2, _⟩ := C98_report_refuted exOpts (sensor exOpts exSens) exPrm exCh.pick F exCh.wt
    (ε := 1) (by norm_num) (by norm_num) (by
      unfold pos
      rw [Kalman.mean_eq]
      ext i
      fin_cases i <;> simp [toG, head]
      norm_num) (z := exRpt 0 (-179)) (by simp [exRpt]; norm_num) (h F le_rfl)
  exact ⟨F, v, z', h F le_rfl, h1, h2⟩

end Verif.System
