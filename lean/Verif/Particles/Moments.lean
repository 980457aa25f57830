import Verif.Particles.Props
import Verif.CF.Props
import Verif.System.Age

/-! # Moments and prediction of particles (C91) -/

namespace Verif.Particles

open Matrix
open Verif.Tracker
open Verif.Kalman (cvF cvQ EigOk)
open Verif.System (LL Rpt head setHead)

theorem mean_move (F : Matrix (Fin 4) (Fin 4) ℝ) (c : List Part) :
    mean (c.map fun g => ⟨F *ᵥ g.x, g.w⟩) = F *ᵥ mean c := by
  unfold mean
  induction c with
  | nil => simp
  | cons g l ih =>
    simp only [List.map_cons, List.sum_cons, Matrix.mulVec_add, Matrix.mulVec_smul]
    rw [ih]

theorem covAt_eq (c : List Part) (m : X) :
    covAt c m = (c.map fun g => g.w • vecMulVec (g.x - m) (g.x - m)).sum := by
  induction c with
  | nil => ext i j; simp [covAt]
  | cons g l ih =>
    rw [List.map_cons, List.sum_cons, ← ih]
    ext i j
    simp only [covAt, List.map_cons, List.sum_cons, Matrix.add_apply, Matrix.smul_apply, smul_eq_mul,
      vecMulVec_apply, Pi.sub_apply]
    ring

theorem covAt_move (F : Matrix (Fin 4) (Fin 4) ℝ) (c : List Part) (m : X) :
    covAt (c.map fun g => ⟨F *ᵥ g.x, g.w⟩) (F *ᵥ m) = F * covAt c m * Fᵀ := by
  rw [covAt_eq, covAt_eq]
  induction c with
  | nil => simp
  | cons g l ih =>
    simp only [List.map_cons, List.sum_cons, Matrix.mul_add, Matrix.add_mul]
    rw [ih, Matrix.mul_smul, Matrix.smul_mul]
    congr 2
    rw [← Matrix.mulVec_sub, Matrix.mul_vecMulVec, Matrix.vecMulVec_mul, Matrix.vecMul_transpose]

/-- **C91, moments** The covariance of particles with weights that are not negative is positive
semidefinite.  A prediction keeps the weights, applies `F` to the mean, and makes `F P Fᵀ` of the
covariance, whatever the noise `Q` is. -/
theorem C91_moments (p : Pdf) (F Q : Matrix (Fin 4) (Fin 4) ℝ) :
    ((∀ g ∈ p.pf.c, 0 ≤ g.w) → (cov p.pf.c).PosSemidef) ∧
    (linearUpdate F Q p).pf.c.map GM.Cmp.w = p.pf.c.map GM.Cmp.w ∧
    mean (linearUpdate F Q p).pf.c = F *ᵥ mean p.pf.c ∧
    cov (linearUpdate F Q p).pf.c = F * cov p.pf.c * Fᵀ := by
  refine ⟨fun h => ?_, ?_, mean_move F _, ?_⟩
  · unfold cov
    rw [covAt_eq]
    generalize mean p.pf.c = m
    generalize p.pf.c = c at h
    induction c with
    | nil => simpa using Matrix.PosSemidef.zero
    | cons g l ih =>
      rw [List.map_cons, List.sum_cons]
      refine Matrix.PosSemidef.add (Matrix.PosSemidef.smul ?_ (h g List.mem_cons_self))
        (ih fun g' hg' => h g' (List.mem_cons_of_mem _ hg'))
      have := Matrix.posSemidef_vecMulVec_self_star (g.x - m)
      simpa using this
  · simp [linearUpdate, List.map_map, Function.comp_def]
  · unfold cov
    show covAt (p.pf.c.map fun g => ⟨F *ᵥ g.x, g.w⟩) (mean (p.pf.c.map fun g => ⟨F *ᵥ g.x, g.w⟩)) = _
    rw [mean_move, covAt_move]

/-- **C91 refuted** For no target and no time step does the constant-velocity model with noise give the
covariance `F P Fᵀ + Q` it gives for Gaussians (`C43`). -/
theorem C91_noise_refuted (p : Pdf) {pS q dT : ℝ} (hq : 0 < q) (hT : 0 < dT) :
    cov ((cv pS q dT).pdf p).pf.c ≠ cvF dT * cov p.pf.c * (cvF dT)ᵀ + cvQ q dT := by
  rw [show (cv pS q dT).pdf p = linearUpdate (cvF dT) (cvQ q dT) p from rfl,
    (C91_moments p (cvF dT) (cvQ q dT)).2.2.2]
  intro h
  have h2 : cvQ q dT 2 2 = 0 := by
    have := congrFun (congrFun h 2) 2
    rw [Matrix.add_apply] at this
    linarith
  have h3 : cvQ q dT 2 2 = q * dT := by simp [cvQ]
  rw [h3] at h2
  exact (mul_pos hq hT).ne' h2

/-- **C91, waiting** If the particles of a target share their velocity, any number of predictions with
any noise leave the covariance of the position as it is (in the local frame). -/
theorem C91_wait (steps : List (ℝ × ℝ)) (p : Pdf) (v2 v3 : ℝ)
    (hw : (p.pf.c.map GM.Cmp.w).sum = 1) (hv : ∀ g ∈ p.pf.c, g.x 2 = v2 ∧ g.x 3 = v3) (pS : ℝ) :
    poscov (steps.foldl (fun p s => (cv pS s.1 s.2).pdf p) p) = poscov p := by
  induction steps generalizing p with
  | nil => rfl
  | cons s l ih =>
    rw [List.foldl_cons]
    have hx : ∀ x : X, cvF s.2 *ᵥ x = ![x 0 + s.2 * x 2, x 1 + s.2 * x 3, x 2, x 3] := by
      intro x
      ext i
      fin_cases i <;> simp [cvF, Matrix.mulVec, dotProduct, Fin.sum_univ_four]
    have hc : ((cv pS s.1 s.2).pdf p).pf.c = p.pf.c.map fun g => ⟨cvF s.2 *ᵥ g.x, g.w⟩ := rfl
    rw [ih]
    · have hm : ∀ (c : List Part) (i : Fin 4) (v : ℝ), (∀ g ∈ c, g.x i = v) →
          mean c i = (c.map GM.Cmp.w).sum * v := by
        intro c i v h
        unfold mean
        induction c with
        | nil => simp
        | cons g l ih =>
          simp only [List.map_cons, List.sum_cons, Pi.add_apply, Pi.smul_apply, smul_eq_mul]
          rw [ih fun g' h' => h g' (List.mem_cons_of_mem _ h'), h g List.mem_cons_self]
          ring
      have m2 := hm p.pf.c 2 v2 fun g h => (hv g h).1
      have m3 := hm p.pf.c 3 v3 fun g h => (hv g h).2
      rw [hw, one_mul] at m2 m3
      have key : ∀ i j : Fin 4, (i = 0 ∨ i = 1) → (j = 0 ∨ j = 1) →
          cov ((cv pS s.1 s.2).pdf p).pf.c i j = cov p.pf.c i j := by
        intro i j hi hj
        unfold cov covAt
        rw [hc, mean_move, List.map_map]
        congr 1
        apply List.map_congr_left
        intro g hg
        obtain ⟨h2, h3⟩ := hv g hg
        simp only [Function.comp, hx]
        rcases hi with rfl | rfl <;> rcases hj with rfl | rfl <;>
          simp [m2, m3, h2, h3]
      unfold poscov
      rw [key 0 0, key 0 1, key 1 0, key 1 1] <;> simp
    · rw [hc, List.map_map]
      exact hw
    · intro g hg
      rw [hc] at hg
      obtain ⟨g', hg', rfl⟩ := List.mem_map.1 hg
      simp only [hx]
      exact hv g' hg'

/-- Three particles of different weight that move together. -/
noncomputable def exMove : Pdf :=
  ⟨⟨[⟨![0, 0, 1, 2], 1 / 2⟩, ⟨![1, 0, 1, 2], 1 / 3⟩, ⟨![0, 1, 1, 2], 1 / 6⟩], 0, false⟩, 0, wide, plane⟩

example := C91_moments exMove (Kalman.cvF 2) (Kalman.cvQ 1 2)
example := C91_noise_refuted exMove (pS := 1) (q := 1) (dT := 2) one_pos two_pos
example := C91_wait [(1, 2), (3, 4), (5, 6)] exMove 1 2 (by simp [exMove]; norm_num)
  (by simp [exMove]) (9 / 10)

/-- All particles are in the same state, and the weights add up to one. -/
def Same (p : Pdf) : Prop := (∃ x, ∀ g ∈ p.pf.c, g.x = x) ∧ (p.pf.c.map GM.Cmp.w).sum = 1

theorem same_map {p q : Pdf} (h : Same p) (f : X → X)
    (e : q.pf.c = p.pf.c.map fun g => ⟨f g.x, g.w⟩) : Same q := by
  obtain ⟨⟨x, hx⟩, hw⟩ := h
  refine ⟨⟨f x, fun g hg => ?_⟩, ?_⟩
  · rw [e] at hg
    obtain ⟨g', hg', rfl⟩ := List.mem_map.1 hg
    exact congrArg f (hx g' hg')
  · rw [e, List.map_map]
    exact hw

theorem same_norm {p : Pdf} (h : Same p) : covNorm p = 0 := by
  obtain ⟨⟨x, hx⟩, hw⟩ := h
  have hm : mean p.pf.c = x := by
    have : ∀ c : List Part, (∀ g ∈ c, g.x = x) → mean c = (c.map GM.Cmp.w).sum • x := by
      intro c
      induction c with
      | nil => intro _; simp [mean]
      | cons g l ih =>
        intro h
        have h1 := ih fun g' h' => h g' (List.mem_cons_of_mem _ h')
        unfold mean at h1 ⊢
        rw [List.map_cons, List.sum_cons, h1, h g List.mem_cons_self, List.map_cons, List.sum_cons,
          add_smul]
    rw [this _ hx, hw, one_smul]
  have hcov : ∀ i j, cov p.pf.c i j = 0 := by
    intro i j
    unfold cov covAt
    rw [hm]
    apply List.sum_eq_zero
    intro y hy
    obtain ⟨g, hg, rfl⟩ := List.mem_map.1 hy
    rw [hx g hg]
    simp
  simp [covNorm, poscov, hcov]

theorem same_predict {k : Opts} {q dT : ℝ} {t : Tgt Pdf} (h : Same t.pdf)
    (hv : t.pdf.pf.valid = false) :
    Same (predictTgt (env k) (cv 1 q dT) t).pdf ∧ (predictTgt (env k) (cv 1 q dT) t).r = t.r := by
  have h1 : Same (toLocal (pos t.pdf) t.pdf) :=
    same_map h (fun x => setHead (CF.ll2ne (head x) (pos t.pdf)) x) rfl
  have h2 : Same ((cv 1 q dT).pdf (toLocal (pos t.pdf) t.pdf)) := same_map h1 (fun x => cvF dT *ᵥ x) rfl
  set p := (cv 1 q dT).pdf (toLocal (pos t.pdf) t.pdf) with hp
  have hs : PF.psum p.pf.c = 1 := by
    rw [← h2.2]
    unfold PF.psum
    have key : ∀ (c : List Part) (a : ℝ), c.foldl (fun a g => a + g.w) a = a + (c.map GM.Cmp.w).sum := by
      intro c
      induction c with
      | nil => intro a; simp
      | cons g l ih => intro a; rw [List.foldl_cons, ih, List.map_cons, List.sum_cons, add_assoc]
    rw [key, zero_add]
  have hn : PF.normalize p.pf = { p.pf with eta := 1 } := by
    unfold PF.normalize
    rw [hs, if_pos (by norm_num)]
    simp
  have hg : (predictTgt (env k) (cv 1 q dT) t).pdf = toGlobal k { p with pf := { p.pf with eta := 1 } } := by
    rw [← hn]
    rfl
  have hu : updateBox k { p with pf := { p.pf with eta := 1 } } =
      { p with pf := { p.pf with eta := 1 } } := by
    unfold updateBox
    rw [show p.pf.valid = false from hv]
    rfl
  refine ⟨?_, ?_⟩
  · rw [hg]
    unfold toGlobal
    rw [hu]
    exact same_map h2 (fun x => setHead (CF.ne2ll (head x) p.origin) x) rfl
  · show t.r * (1 : ℝ) ^ dT * (PF.normalize p.pf).eta = t.r
    rw [hn, Real.one_rpow, mul_one, mul_one]

/-- **C91, kept** A target whose particles have collapsed into one state is never erased by
predictions with the constant-velocity model: whatever the noise and the time. -/
theorem C91_kept {k : Opts} {prm : Params} {fuel : Nat} (hL : 0 ≤ prm.covlim)
    (steps : List (ℝ × ℝ)) : ∀ {calls : List (Call Pdf Rpt)}, (∀ c ∈ calls, PCall k c) →
    ∀ {s : St Pdf}, run (env k) prm fuel calls St.empty = some s → ∀ {a : Nat} {t : Tgt Pdf},
    s.heap a = some t → (∃ x, ∀ g ∈ t.pdf.pf.c, g.x = x) → (t.pdf.pf.c.map GM.Cmp.w).sum = 1 →
    prm.rlim ≤ t.r →
    ∃ s', run (env k) prm fuel (steps.map fun x => .predict (cv 1 x.1 x.2) id) s = some s' ∧
      ∃ u, s'.heap a = some u ∧ u.id = t.id ∧ u.r = t.r := by
  induction steps with
  | nil => intro calls _ s _ a t ht _ _ _; exact ⟨s, rfl, t, ht, rfl, rfl⟩
  | cons x l ih =>
    intro calls hc s e a t ht hx hw hr
    have hv := (blind_run hc e a t ht).1
    obtain ⟨s1, hp, hf⟩ := C28_predict (env_box k) prm fuel calls (fun c h => pCall_ok (hc c h)) s e
      (cv 1 x.1 x.2) (ord := id) (fun l => List.Perm.refl _)
    obtain ⟨h1, h2⟩ := same_predict (k := k) (q := x.1) (dT := x.2) ⟨hx, hw⟩ hv
    have hst : step (env k) prm fuel s (.predict (cv 1 x.1 x.2) id) = some s1 := hp
    cases hu : s1.heap a with
    | none =>
      exfalso
      rcases (hf a).2 t ht hu with h3 | h3
      · rw [h2] at h3; linarith
      · have : prm.covlim < covNorm (predictTgt (env k) (cv 1 x.1 x.2) t).pdf := h3
        rw [same_norm h1] at this; linarith
    | some u =>
      obtain ⟨_, _, t', ht', rfl⟩ := (hf a).1 u hu
      rw [ht] at ht'
      cases ht'
      obtain ⟨s', h3, v, hv', i2, r2⟩ := ih (calls := calls ++ [.predict (cv 1 x.1 x.2) id])
        (fun c h => by
          rcases List.mem_append.1 h with h | h
          · exact hc c h
          · rw [List.mem_singleton.1 h]
            exact ⟨fun l => List.Perm.refl _, Or.inl ⟨_, _, _, rfl⟩⟩)
        (by rw [run_append, e, Option.bind_some]; simp only [run, hst]) hu h1.1 h1.2
        (by rw [h2]; exact hr)
      refine ⟨s', ?_, v, hv', i2, r2.trans h2⟩
      rw [List.map_cons]
      simp only [run, hst]
      exact h3

/-- The draws are all zero. -/
noncomputable def exSens0 : PSens := { exSens with lambdaB := 1, draws := fun _ => [0, 0] }

/-- One report, and a target is started from it with two particles at the same place. -/
theorem exCollapsed : ∃ s a t, run (env exOpts) exPrm 0
    [.correct (sensor exOpts exSens0) exCh exOne ⟨System.exRpt 0 0, none, 0⟩] St.empty = some s ∧
    s.heap a = some t ∧ t.r = 4 / 5 ∧ (∃ x, ∀ g ∈ t.pdf.pf.c, g.x = x) ∧
    (t.pdf.pf.c.map GM.Cmp.w).sum = 1 := by
  have hok : CallOk (env exOpts) (.correct (sensor exOpts exSens0) exCh exOne ⟨System.exRpt 0 0, none, 0⟩) :=
    pCall_ok ⟨⟨exSens0, ⟨by show (-90 : ℚ) ≤ 90; norm_num, by show (0 : ℚ) ≤ 180; norm_num⟩, rfl⟩,
      exCh_ok⟩
  obtain ⟨s, reps, new, h1, h2, _, h3, h4, _⟩ := C58_unreached_scan (env_box exOpts) exPrm 0 []
    (by simp) St.empty rfl (sensor exOpts exSens0) exCh exOne ⟨System.exRpt 0 0, none, 0⟩
    hok (by rintro a ⟨t, ht, _⟩; simp [St.empty] at ht)
  have hl : new.length = 1 := h4 (by show (1 : ℝ) / 20 ≤ (1 : ℕ); norm_num)
    (by show (1 : ℝ) / 20 ≤ 1 / (1 : ℕ); norm_num)
  obtain ⟨a, ha⟩ := List.exists_mem_of_length_pos (by omega : 0 < new.length)
  obtain ⟨t, ht, hr⟩ := h3 a ha
  obtain ⟨y, hy, o, ho⟩ := first_scan (env_box exOpts) exPrm 0 (sensor exOpts exSens0) exCh exOne
    ⟨System.exRpt 0 0, none, 0⟩ hok s reps h1 a t ht
  refine ⟨s, a, t, by simp only [run, step, h1, Option.map_some], ht, ?_, ?_⟩
  · rw [hr]
    show min ((1 : ℝ) / (1 : ℕ)) (4 / 5) = 4 / 5
    norm_num
  · rw [ho]
    generalize System.rGlobal o (System.rLocal o y.val) = z
    set m := initMean ((env exOpts).rGlobal o ((env exOpts).rLocal o y.val)) with hm
    set P := initCov exSens0.pv ((env exOpts).rGlobal o ((env exOpts).rLocal o y.val)) with hP
    let p : Pdf := ⟨⟨[⟨Kalman.nrandCol m (exOpts.eig P).1 (exOpts.eig P).2 0, 1 / ((2 : ℕ) : ℝ)⟩,
      ⟨Kalman.nrandCol m (exOpts.eig P).1 (exOpts.eig P).2 0, 1 / ((2 : ℕ) : ℝ)⟩], 0, false⟩, 0,
      wide, plane⟩
    have h0 : Same p := by
      refine ⟨⟨Kalman.nrandCol m (exOpts.eig P).1 (exOpts.eig P).2 0, ?_⟩, ?_⟩
      · intro g hg
        simp only [p, List.mem_cons, List.not_mem_nil, or_false] at hg
        rcases hg with rfl | rfl <;> rfl
      · simp only [p, List.map_cons, List.map_nil, List.sum_cons, List.sum_nil]
        norm_num
    have h5 : Same (toLocal (pos p) p) :=
      same_map h0 (fun x => setHead (CF.ll2ne (head x) (pos p)) x) rfl
    exact same_map (q := (sensor exOpts exSens0).init _) h5
      (fun x => setHead (CF.ne2ll (head x) (pos p)) x) rfl

/-- **C91 refuted, waiting** So with particles it is not true that a target that is not seen any more
is forgotten (`C89`). -/
theorem C91_forgotten_refuted : ¬ ∀ (calls : List (Call Pdf Rpt)) (s : St Pdf) (a : Nat)
    (t : Tgt Pdf), (∀ c ∈ calls, PCall exOpts c) →
    run (env exOpts) exPrm 0 calls St.empty = some s → s.heap a = some t →
    ∃ n s', run (env exOpts) exPrm 0 (List.replicate n (.predict (cv 1 1 1) id)) s = some s' ∧
      ∀ u, s'.heap a = some u → u.r < t.r := by
  intro h
  obtain ⟨s, a, t, h1, h2, h3, h4, h5⟩ := exCollapsed
  have hc : ∀ c ∈ [Call.correct (sensor exOpts exSens0) exCh exOne ⟨System.exRpt 0 0, none, 0⟩],
      PCall exOpts c := by
    intro c hc
    rw [List.mem_singleton.1 hc]
    exact ⟨⟨exSens0, ⟨by show (-90 : ℚ) ≤ 90; norm_num, by show (0 : ℚ) ≤ 180; norm_num⟩, rfl⟩,
      exCh_ok⟩
  obtain ⟨n, s', h6, h7⟩ := h _ s a t hc h1 h2
  obtain ⟨s1, h8, u, hu, _, hr⟩ := C91_kept (by show (0 : ℝ) ≤ 150; norm_num)
    (List.replicate n ((1 : ℝ), (1 : ℝ))) hc h1 h2 h4 h5
    (by rw [h3]; show (1 : ℝ) / 20 ≤ 4 / 5; norm_num)
  rw [List.map_replicate] at h8
  rw [h8] at h6
  cases h6
  have := h7 u hu
  rw [hr] at this
  exact lt_irrefl _ this

end Verif.Particles
