import Verif.System.Step
import Verif.System.Mix
import Verif.Tracker.Props4
import Mathlib.Analysis.SpecialFunctions.Log.Basic

/-! # The tracker with Gaussian mixtures: densities stay proper (C66) -/

namespace Verif.System

open Matrix
open Verif.Lap (XR)
open Verif.Murty (PickOk)
open Verif.Hyp
open Verif.Tracker
open Verif.GM (SortOk)

/-- A sensor as it should be: a valid field of view, detection probabilities in [0,1], a positive
definite velocity covariance, and a logarithm that is finite on positive numbers and infinite at
zero. -/
structure SensOk (s : PSens) : Prop where
  fov : s.fovBox.Valid
  det : ∀ a z i, 0 ≤ s.pdDet a z i
  miss : ∀ a i, 0 ≤ s.pdMiss a i ∧ s.pdMiss a i ≤ 1
  pv : s.pv.PosDef
  pos : ∀ x, 0 < x → XR.IsFin (s.lg x)
  zero : s.lg 0 = XR.pinf

/-- The calls of a user of `lmb/lmb.cpp`: predictions with `CV` or `NM`, corrections with a position
sensor.  The length of a scan is limited by the threshold `1e-8` of `gm.hpp:46`. -/
def SysCall (k : Opts) (prm : Params) : Call Pdf Rpt → Prop
  | .predict m ord => (∀ l, (ord l).Perm l) ∧
      ((∃ pS q dT, 0 ≤ pS ∧ pS ≤ 1 ∧ 0 ≤ q ∧ 0 ≤ dT ∧ m = cv pS q dT) ∨
        ∃ pS Q, 0 ≤ pS ∧ pS ≤ 1 ∧ Q.PosSemidef ∧ m = nm pS Q)
  | .correct S ch scan _ => (∃ s, SensOk s ∧ S = sensor k s) ∧ ChOk ch ∧
      (∀ r c, PickOk (ch.pick r c)) ∧ (∀ q, 0 ≤ ch.wt q) ∧
      (3 * (scan.length : ℝ) + 4) / 100000000 < prm.rlim

/-- The limits of `params.hpp:11` and `gm.hpp:18` are within what `join` can stand. -/
structure OptsOk (k : Opts) : Prop where
  srt : SortOk k.srt
  mx : 0 < k.mx
  lim : k.lim ≤ 1 / 100
  prod : k.mx * k.lim ≤ 2

/-- The invariant. -/
def Fine (mx : Nat) (t : Tgt Pdf) : Prop :=
  (0 ≤ t.r ∧ t.r ≤ 1) ∧ Good mx t.pdf ∧ t.pdf.mix.c ≠ []

theorem env_box (k : Opts) : BoxOk (env k) := ⟨RTreeF.Bd64, k.areas.2, fun p => p.box.2⟩

theorem sysCall_ok {k : Opts} {prm : Params} {c : Call Pdf Rpt} (h : SysCall k prm c) :
    CallOk (env k) c := by
  cases c with
  | predict m ord => exact h.1
  | correct S ch scan d =>
    obtain ⟨⟨s, hs, rfl⟩, hch, _⟩ := h
    exact ⟨hs.fov, hch, fun z _ => (k.rbox z.val).2.1⟩

theorem fine_predict {mx : Nat} {k : Opts} {m : Motion Pdf} (hf0 : 0 ≤ m.factor)
    (hf1 : m.factor ≤ 1) (hm : ∀ p, Good mx p → Good mx (m.pdf p))
    (hc : ∀ p : Pdf, (m.pdf p).mix.c = [] → p.mix.c = []) {t : Tgt Pdf} (h : Fine mx t) :
    Fine mx (predictTgt (env k) m t) := by
  obtain ⟨⟨h1, h2⟩, h3, h4⟩ := h
  set p := m.pdf (toLocal (pos t.pdf) t.pdf) with hp
  have g : Good mx p := hm _ (good_toLocal h3 _)
  have hne : p.mix.c ≠ [] := by
    intro e
    have := hc _ e
    simp [toLocal, cLocal] at this
    exact h4 this
  have hs : (p.mix.c.map GM.Cmp.w).sum = 1 := g.sum.resolve_left hne
  have hb : 1 / 100000000 < (p.mix.c.map GM.Cmp.w).sum := by rw [hs]; norm_num
  have he : (GM.normalize p.mix).eta = 1 := by
    rw [((GM.C37_normalize p.mix).1 hb).2.1, hs]
  refine ⟨?_, ?_, ?_⟩
  · change 0 ≤ t.r * m.factor * (GM.normalize p.mix).eta ∧
      t.r * m.factor * (GM.normalize p.mix).eta ≤ 1
    rw [he, mul_one]
    exact ⟨mul_nonneg h1 hf0, mul_le_one₀ h2 hf0 hf1⟩
  · exact good_toGlobal (good_normalize g.cmp g.len p) k
  · change cGlobal p.origin (GM.normalize p.mix).c ≠ []
    rw [GM.normalize_c _ hb]
    simpa [cGlobal] using hne

theorem missedEta_bounds {pd : Nat → ℝ} (hpd : ∀ i, 0 ≤ pd i ∧ pd i ≤ 1) {m : GM.Mix GX ℝ}
    (hc : GoodC m.c) : 0 ≤ missedEta pd m ∧ missedEta pd m ≤ (m.c.map GM.Cmp.w).sum := by
  unfold missedEta
  obtain ⟨c, e⟩ := m
  have key : ∀ (c : List Cmp) (pd : Nat → ℝ) (a : ℝ), (∀ i, 0 ≤ pd i ∧ pd i ≤ 1) → GoodC c →
      a ≤ (c.mapIdx fun i g => g.w * pd i).foldl (· + ·) a ∧
      (c.mapIdx fun i g => g.w * pd i).foldl (· + ·) a ≤ a + (c.map GM.Cmp.w).sum := by
    intro c
    induction c with
    | nil => intro pd a _ _; simp
    | cons g c ih =>
      intro pd a hpd hc
      obtain ⟨i1, i2⟩ := ih (fun i => pd (i + 1)) (a + g.w * pd 0) (fun i => hpd _)
        fun x hx => hc x (List.mem_cons_of_mem _ hx)
      have h0 := (hc g List.mem_cons_self).1
      have h1 := mul_nonneg h0 (hpd 0).1
      have h2 := mul_le_mul_of_nonneg_left (hpd 0).2 h0
      simp only [List.mapIdx_cons, List.foldl_cons, List.map_cons, List.sum_cons]
      constructor <;> linarith
  simpa using key c pd 0 hpd hc

theorem correctMix_eta {mx : Nat} {p : Pdf} (h : Good mx p) {pd : Nat → ℝ} (hpd : ∀ i, 0 ≤ pd i)
    (z : Rpt) : 0 ≤ (correctMix pd z p.mix).eta ∧ ((correctMix pd z p.mix).eta ≠ 0 →
      ((correctMix pd z p.mix).c.map GM.Cmp.w).sum = 1) := by
  unfold correctMix
  set m : GM.Mix GX ℝ :=
    ⟨p.mix.c.mapIdx fun i g => ofG (Kalman.correct Kalman.posH (pd i) z.1 (toG g)), p.mix.eta⟩
  obtain ⟨h1, h2⟩ := GM.C37_normalize m
  by_cases hb : 1 / 100000000 < (m.c.map GM.Cmp.w).sum
  · obtain ⟨e1, e2, _⟩ := h1 hb
    rw [e2]
    exact ⟨(lt_trans (by norm_num) hb).le, fun _ => e1⟩
  · rw [(h2 (not_lt.1 hb)).2]
    exact ⟨le_refl _, fun h => absurd rfl h⟩

theorem lg_isC {s : PSens} (hs : SensOk s) {x : ℝ} (hx : 0 ≤ x) : XR.IsC (s.lg x) := by
  rcases hx.lt_or_eq with h | h
  · exact Or.inr (hs.pos x h)
  · rw [← h, hs.zero]; exact Or.inl rfl

theorem fine_compute {k : Opts} (hk : OptsOk k) {prm : Params} {s : PSens} (hs : SensOk s)
    {pick : ∀ r c, List (Murty.Node r c) → Nat} (hp : ∀ r c, PickOk (pick r c)) {fuel : Nat}
    {wt : ℚ → ℝ} (hwt : ∀ q, 0 ≤ wt q) {n : Nat} (hn : (3 * (n : ℝ) + 4) / 100000000 < prm.rlim)
    {ts : List (Nat × Tgt Pdf)} {rs : List Rpt} (hlen : rs.length ≤ n) {v : Comp Pdf Rpt}
    (hts : ∀ x ∈ ts, Fine k.mx x.2)
    (e : compute (env k) (sensor k s) prm pick fuel wt ts rs = some v) :
    ∀ t ∈ v.ts, viable (env k) prm t = true → Fine k.mx t := by
  unfold compute at e
  simp only at e
  set o := (env k).center (rs.map (env k).rpos ++ ts.map fun t => (env k).pos t.2.pdf) with ho
  set rl := rs.map ((env k).rLocal o) with hrl
  set tl := ts.map fun t => (t.1, forth (env k) o t.2) with htl
  have htl' : ∀ x ∈ tl, Fine k.mx x.2 := by
    intro x hx
    obtain ⟨y, hy, rfl⟩ := List.mem_map.1 hx
    obtain ⟨h1, h2, h3⟩ := hts y hy
    refine ⟨h1, good_toLocal h2 _, ?_⟩
    change cLocal o y.2.pdf.mix.c ≠ []
    simpa [cLocal] using h3
  have glob : ∀ t : Tgt Pdf, Fine k.mx t → Fine k.mx (back (env k) t) := by
    intro t ht
    refine ⟨ht.1, good_toGlobal ht.2.1 k, ?_⟩
    change cGlobal t.pdf.origin t.pdf.mix.c ≠ []
    simpa [cGlobal] using ht.2.2
  split at e
  · injection e with e
    subst e
    intro t ht
    simp at ht
  · rename_i h0
    split at e
    · cases e
    · rename_i a ha
      have hb := hypotheses_bnd hwt ha
      split at e
      · injection e with e
        subst e
        intro t ht _
        obtain ⟨y, hy, rfl⟩ := List.mem_map.1 ht
        exact glob _ (htl' y hy)
      · injection e with e
        subst e
        intro t ht hv
        simp only [List.mem_ofFn, Set.mem_range] at ht
        obtain ⟨i, rfl⟩ := ht
        have hi := htl' (tl.get i) (List.get_mem _ _)
        have hfin : ∀ j : Fin rl.length, a.R i j.castSucc ≠ 0 →
            XR.IsFin ((sensor k s).detCost (tl.get i).1 (tl.get i).2.r (tl.get i).2.pdf (rl.get j)) := by
          intro j hj
          refine hypotheses_finite ?_ ?_ ?_ (Nat.pos_of_ne_zero h0) (hp _ _) ha i j hj
          · intro i' j'
            have hi' := htl' (tl.get i') (List.get_mem _ _)
            exact lg_isC hs (mul_nonneg hi'.1.1 (correctMix_eta hi'.2.1 (hs.det _ _) _).1)
          · intro i'
            have hi' := htl' (tl.get i') (List.get_mem _ _)
            have := (missedEta_bounds (hs.miss (tl.get i').1) hi'.2.1.cmp).2
            rw [hi'.2.1.sum.resolve_left hi'.2.2] at this
            exact lg_isC hs (mul_nonneg hi'.1.1 (by linarith))
          · intro i'
            change XR.IsFin (if _ then _ else _)
            split
            · rename_i hr
              exact hs.pos _ (by linarith)
            · exact ⟨_, rfl⟩
        have hpost := hb.posterior i
        have hrv : prm.rlim ≤ a.posterior i := by
          by_contra hc
          unfold viable at hv
          split at hv
          · cases hv
          · rename_i h; exact h (not_le.1 hc)
        have hl0 : 0 < prm.rlim := lt_of_le_of_lt (by positivity) hn
        apply glob
        refine ⟨hpost, ?_⟩
        -- the row was joined
        obtain ⟨hsum, hres⟩ : (∑ j, a.R i j / a.wsum) = a.posterior i ∧
            (targetCorrect (a.rowSum i) (1 / 1000000)).2 = true := by
          unfold Acc.posterior at hrv ⊢
          unfold Acc.rowSum targetCorrect at *
          by_cases hw : a.wsum = 0
          · simp only [if_pos hw] at hrv; linarith
          · simp only [if_neg hw] at hrv ⊢
            by_cases h1 : (1 : ℝ) / 1000000 ≤ ∑ j, a.R i j / a.wsum
            · simp only [if_pos h1]; exact ⟨by trivial, by trivial⟩
            · simp only [if_neg h1] at hrv; linarith
        simp only [corrected, hres, if_true]
        change Good k.mx (joinPdf k _ _ _) ∧ (joinPdf k _ _ _).mix.c ≠ []
        have w0 : ∀ x ∈ List.ofFn (fun j => a.R i j / a.wsum), 0 ≤ x := by
          intro x hx
          simp only [List.mem_ofFn, Set.mem_range] at hx
          obtain ⟨j, rfl⟩ := hx
          exact (hb.row i j).1
        have wl : (List.ofFn (fun j => a.R i j / a.wsum)).length =
            (rl.map ((sensor k s).upd (tl.get i).1 (tl.get i).2.pdf) ++
              [(sensor k s).missPdf (tl.get i).1 (tl.get i).2.pdf]).length := by simp
        have gps : ∀ q ∈ rl.map ((sensor k s).upd (tl.get i).1 (tl.get i).2.pdf) ++
              [(sensor k s).missPdf (tl.get i).1 (tl.get i).2.pdf], Good k.mx q := by
          intro q hq
          rcases List.mem_append.1 hq with hq | hq
          · obtain ⟨z, _, rfl⟩ := List.mem_map.1 hq
            exact good_correct hi.2.1 (hs.det _ _) z
          · rw [List.mem_singleton] at hq
            subst hq
            exact good_missed hi.2.1 _
        refine ⟨good_join hk.srt hi.2.1 _ _ wl w0 gps, ?_⟩
        refine join_nonempty hk.srt hk.mx hk.lim hk.prod _ _ _ wl w0 gps ?_ ?_
        · intro y hy
          obtain ⟨j, hj, rfl⟩ := List.mem_iff_getElem.1 hy
          simp only [List.length_zip, List.length_ofFn, List.length_map, List.length_append,
            List.length_singleton, Nat.min_self] at hj
          simp only [List.getElem_zip, List.getElem_ofFn, List.getElem_map]
          by_cases hjl : j < rl.length
          · rw [List.getElem_append_left (by simpa using hjl), List.getElem_map]
            by_cases hR : a.R i (Fin.castSucc ⟨j, hjl⟩) = 0
            · left
              change a.R i (Fin.castSucc ⟨j, hjl⟩) / a.wsum = 0
              rw [hR, zero_div]
            · right
              obtain ⟨q, hq⟩ := hfin ⟨j, hjl⟩ hR
              refine (correctMix_eta hi.2.1 (hs.det _ _) _).2 ?_
              intro h0
              change s.lg ((tl.get i).2.r *
                (correctMix (s.pdDet (tl.get i).1 rl[j]) rl[j] (tl.get i).2.pdf.mix).eta) = _ at hq
              rw [h0, mul_zero, hs.zero] at hq
              cases hq
          · right
            rw [List.getElem_append_right (by simpa using Nat.not_lt.1 hjl)]
            simp only [List.length_map, List.getElem_singleton]
            exact hi.2.1.sum.resolve_left hi.2.2
        · rw [List.sum_ofFn, hsum, List.length_ofFn]
          have h1 : (rl.length : ℝ) ≤ n := by
            rw [hrl, List.length_map]; exact_mod_cast hlen
          refine lt_of_le_of_lt ?_ (hn.trans_le hrv)
          push_cast
          linarith

/-- **C66** The densities of the tracker stay proper for ever.  After any history of predictions with
the models `CV` and `NM` and corrections with position sensors, whatever the scans, the sampled
detection probabilities, the births and the order of the parallel loops: every live target has an
existence probability in [0,1] and a mixture of at least one and at most `mx` Gaussians, whose
weights are not negative and add up to one and whose covariances are positive definite.  So the
overall covariance that `cov` returns is positive definite too. -/
theorem C66_densities_proper {k : Opts} (hk : OptsOk k) {prm : Params} (hB0 : 0 ≤ prm.rBmax)
    (hB1 : prm.rBmax ≤ 1) {calls : List (Call Pdf Rpt)} (hc : ∀ c ∈ calls, SysCall k prm c)
    {fuel : Nat} {s : St Pdf} (e : run (env k) prm fuel calls St.empty = some s) (a : Nat)
    (t : Tgt Pdf) (ht : s.heap a = some t) :
    (0 ≤ t.r ∧ t.r ≤ 1) ∧ 1 ≤ t.pdf.mix.c.length ∧ t.pdf.mix.c.length ≤ k.mx ∧
      (∀ g ∈ t.pdf.mix.c, 0 ≤ g.w ∧ g.x.2.PosDef) ∧ (t.pdf.mix.c.map GM.Cmp.w).sum = 1 ∧
      (Kalman.cov (t.pdf.mix.c.map toG)).PosDef := by
  have hf : Fine k.mx t := by
    refine run_tgt (T := Fine k.mx) (env_box k) ?_ (fun c h => sysCall_ok (hc c h)) ?_ e a t ht
    · intro t u h1 h2 h
      unfold Fine
      rw [h1, h2]
      exact h
    · intro c hcm
      have h := hc c hcm
      cases c with
      | predict m ord =>
        intro t hT _
        obtain ⟨_, ⟨pS, q, dT, h1, h2, h3, h4, rfl⟩ | ⟨pS, Q, h1, h2, h3, rfl⟩⟩ := h
        · refine fine_predict (Real.rpow_nonneg h1 _) (Real.rpow_le_one h1 h2 h4) ?_ ?_ hT
          · exact fun p hp => good_move hp (cvF_inj dT) ((Kalman.C43_cv_noise q dT).1 h3 h4)
          · intro p hp
            simpa [cv, moveMix] using hp
        · refine fine_predict h1 h2 ?_ ?_ hT
          · exact fun p hp => good_move hp (by rw [← cvF_zero]; exact cvF_inj 0) h3
          · intro p hp
            simpa [nm, moveMix] using hp
      | correct S ch scan dflt =>
        obtain ⟨⟨sn, hs, rfl⟩, hch, hpk, hwt, hn⟩ := h
        have hl0 : 0 < prm.rlim := lt_of_le_of_lt (by positivity) hn
        refine ⟨fun ts rs v hts hl hv => fine_compute hk hs hpk hwt hn hl hts hv, ?_⟩
        intro z id x cid hx
        obtain ⟨g1, g2⟩ := good_init hk.mx k hs.pv z
        exact ⟨⟨le_min (hl0.le.trans hx) hB0, (min_le_right _ _).trans hB1⟩, g1, g2⟩
  obtain ⟨h1, h2, h3⟩ := hf
  exact ⟨h1, List.length_pos_iff.2 h3, h2.len, h2.cmp, h2.sum.resolve_left h3, h2.cov h3⟩

/-! ## A concrete history -/

/-- A whole number kept between -1000 and 1000. -/
def exClamp (a : ℤ) : ℚ := max (-1000) (min 1000 a)

/-- A box around a point with whole coordinates. -/
def exBoxAt (a b : ℤ) : Box :=
  ⟨⟨exClamp a - 1, exClamp b - 1, exClamp a + 2, exClamp b + 2⟩, by
    have h : ∀ a, -1000 ≤ exClamp a ∧ exClamp a ≤ 1000 := fun a =>
      ⟨le_max_left _ _, max_le (by norm_num) (min_le_left _ _)⟩
    obtain ⟨h1, h2⟩ := h a
    obtain ⟨h3, h4⟩ := h b
    refine ⟨⟨by show exClamp a - 1 ≤ exClamp a + 2; linarith,
      by show exClamp b - 1 ≤ exClamp b + 2; linarith⟩, ?_⟩
    rintro q rfl
    unfold RTree.Rect.Sub RTreeF.box64
    norm_num
    refine ⟨?_, ?_, ?_, ?_⟩ <;> linarith⟩

/-- A square root as `std::sqrt` gives it. -/
noncomputable def exSqrt : ℚ → ℚ := RTreeF.correctSqrt_exists.choose

open Classical in
/-- Sort by weight, `cw_lim = 0.01`, 200 components, boxes of half-width one around the first
component or the report, rounded down to integers; areas in `double` arithmetic. -/
noncomputable def exOpts : Opts where
  srt l := l.insertionSort fun a b => b.w ≤ a.w
  lim := 1 / 100
  mx := 200
  mkBox c b o := exBoxAt ⌊o 0⌋ ⌊o 1⌋
  rbox z := exBoxAt ⌊z.1.x 0⌋ ⌊z.1.x 1⌋
  areas := ⟨RTreeF.areas64 exSqrt, RTreeF.areas64_ok RTreeF.correctSqrt_exists.choose_spec⟩

theorem exOpts_ok : OptsOk exOpts := by
  classical
  refine ⟨?_, ?_, ?_, ?_⟩
  · intro l
    haveI : Std.Total (α := Cmp) (fun a b => b.w ≤ a.w) := ⟨fun a b => le_total _ _⟩
    haveI : IsTrans Cmp (fun a b => b.w ≤ a.w) := ⟨fun _ _ _ h1 h2 => h2.trans h1⟩
    exact ⟨List.perm_insertionSort _ l, List.pairwise_insertionSort _ l⟩
  · show 0 < 200; norm_num
  · show (1 : ℝ) / 100 ≤ 1 / 100; norm_num
  · show ((200 : ℕ) : ℝ) * (1 / 100) ≤ 2; norm_num

open Classical in
/-- A sensor with a detection probability of 0.9 and logarithms rounded to multiples of `2⁻⁴⁰`. -/
noncomputable def exSens : PSens where
  fovBox := ⟨-90, -180, 90, 180⟩
  inView _ := true
  lambdaB := 1
  pv := 1
  pdDet _ _ _ := 9 / 10
  pdMiss _ _ := 9 / 10
  lg x := if 0 < x then XR.fin (⌊-Real.log x * 2 ^ 40⌋ / 2 ^ 40) else XR.pinf

theorem exSens_ok : SensOk exSens := by
  refine ⟨?_, ?_, ?_, Matrix.PosDef.one, ?_, ?_⟩
  · constructor
    · show (-90 : ℚ) ≤ 90; norm_num
    · show (-180 : ℚ) ≤ 180; norm_num
  · intro _ _ _; show (0 : ℝ) ≤ 9 / 10; norm_num
  · intro _ _; show (0 : ℝ) ≤ 9 / 10 ∧ (9 : ℝ) / 10 ≤ 1; norm_num
  · intro x hx
    exact ⟨_, if_pos hx⟩
  · exact if_neg (lt_irrefl _)

/-- A report at the given position, with covariance 1 and clutter intensity 1. -/
noncomputable def exRpt (x y : ℝ) : Rpt := ⟨⟨![x, y], 1, 1⟩, Matrix.PosDef.one, one_pos⟩

/-- Two reports. -/
noncomputable def exScan : List (Rep Rpt) := [⟨exRpt 58 15, none, 0⟩, ⟨exRpt 58 17, none, 0⟩]

/-- Two scans, with a prediction between them. -/
noncomputable def exHist : List (Call Pdf Rpt) :=
  [.correct (sensor exOpts exSens) exCh exScan ⟨exRpt 0 0, none, 0⟩,
   .predict (cv (9 / 10) 1 2) id,
   .correct (sensor exOpts exSens) exCh exScan ⟨exRpt 0 0, none, 0⟩]

theorem exHist_ok : ∀ c ∈ exHist, SysCall exOpts exPrm c := by
  have h : SysCall exOpts exPrm (.correct (sensor exOpts exSens) exCh exScan ⟨exRpt 0 0, none, 0⟩) :=
    ⟨⟨_, exSens_ok, rfl⟩, exCh_ok, exCh_pick, fun q => (ew_pos q).le, by
      show (3 * ((2 : ℕ) : ℝ) + 4) / 100000000 < 1 / 20
      norm_num⟩
  intro c hc
  simp only [exHist, List.mem_cons, List.not_mem_nil, or_false] at hc
  rcases hc with rfl | rfl | rfl
  · exact h
  · exact ⟨fun l => List.Perm.refl _, Or.inl ⟨_, _, _, by norm_num, by norm_num, by norm_num,
      by norm_num, rfl⟩⟩
  · exact h

theorem exHist_costs : ∀ c ∈ exHist, CallCosts c := by
  have hl : ∀ x, XR.IsC (exSens.lg x) := by
    intro x
    by_cases h : 0 < x
    · exact Or.inr ⟨_, if_pos h⟩
    · exact Or.inl (if_neg h)
  have h : CostsOk (sensor exOpts exSens) := by
    refine ⟨fun _ _ _ _ => hl _, fun _ _ _ => hl _, fun r => ?_⟩
    change XR.IsFin (if _ then _ else _)
    split
    · rename_i hr
      exact exSens_ok.pos _ (by linarith)
    · exact ⟨_, rfl⟩
  intro c hc
  simp only [exHist, List.mem_cons, List.not_mem_nil, or_false] at hc
  rcases hc with rfl | rfl | rfl
  · exact ⟨h, exCh_pick⟩
  · exact trivial
  · exact ⟨h, exCh_pick⟩

/-- The whole history is defined, and the densities are proper after it. -/
example : ∃ F s, run (env exOpts) exPrm F exHist St.empty = some s ∧
    ∀ a t, s.heap a = some t → (Kalman.cov (t.pdf.mix.c.map toG)).PosDef := by
  obtain ⟨F, s, h⟩ := C26_defined (env_box exOpts) exPrm exHist
    (fun c h => sysCall_ok (exHist_ok c h)) exHist_costs
    (by simp [exHist, Call.reports, exScan])
  refine ⟨F, s, h F (le_refl _), fun a t ht => ?_⟩
  exact (C66_densities_proper exOpts_ok (by show (0 : ℝ) ≤ 4 / 5; norm_num)
    (by show (4 : ℝ) / 5 ≤ 1; norm_num) exHist_ok (h F (le_refl _)) a t ht).2.2.2.2.2

/-- After the first scan two targets are alive, with existence probability 1/2. -/
example : ∃ s a t, run (env exOpts) exPrm 0 (exHist.take 1) St.empty = some s ∧
    s.targets.length = 2 ∧ s.heap a = some t ∧ t.r = 1 / 2 ∧
    (t.pdf.mix.c.map GM.Cmp.w).sum = 1 := by
  have hok := sysCall_ok (exHist_ok _ List.mem_cons_self)
  obtain ⟨s, reps, new, h1, h2, _, h3, h4, _⟩ := C58_unreached_scan (env_box exOpts) exPrm 0 []
    (by simp) St.empty rfl (sensor exOpts exSens) exCh exScan ⟨exRpt 0 0, none, 0⟩ hok
    (by rintro a ⟨t, ht, _⟩; simp [St.empty] at ht)
  have hl : new.length = 2 := h4 (by show (1 : ℝ) / 20 ≤ (2 : ℕ); norm_num)
    (by show (1 : ℝ) / 20 ≤ 1 / (2 : ℕ); norm_num)
  have hrun : run (env exOpts) exPrm 0 (exHist.take 1) St.empty = some s := by
    simp only [exHist, List.take_succ_cons, List.take_zero, run, step, h1, Option.map_some]
  obtain ⟨a, ha⟩ := List.exists_mem_of_length_pos (by omega : 0 < new.length)
  obtain ⟨t, ht, hr⟩ := h3 a ha
  refine ⟨s, a, t, hrun, ?_, ht, ?_, ?_⟩
  · rw [h2, List.length_append, hl]; rfl
  · rw [hr]
    show min ((1 : ℝ) / (2 : ℕ)) (4 / 5) = 1 / 2
    norm_num
  · exact (C66_densities_proper exOpts_ok (by show (0 : ℝ) ≤ 4 / 5; norm_num)
      (by show (4 : ℝ) / 5 ≤ 1; norm_num) (fun c h => exHist_ok c (List.mem_of_mem_take h)) hrun a t
      ht).2.2.2.2.1

end Verif.System
