import Verif.System.Props

/-!
# C89: how long a target lives without being corrected

The prediction adds the noise of the motion model to the covariance, and `viable` limits the
covariance of the position: with the constant-velocity model every target that is not corrected is
erased after a time that depends on the noise and the limit only.
-/

namespace Verif.System

open Verif.Tracker Matrix
open Verif.Kalman (Gauss cvF cvQ linearUpdate)

/-- A call: a prediction with the constant-velocity model, or a correction. -/
inductive Ev where
  | predict (pS q dT : ℝ) (ord : List Nat → List Nat)
  | correct (S : Sensor Pdf Rpt) (ch : Choices) (scan : List (Rep Rpt)) (dflt : Rep Rpt)

/-- The call of the model. -/
noncomputable def Ev.call : Ev → Call Pdf Rpt
  | .predict pS q dT ord => .predict (cv pS q dT) ord
  | .correct S ch scan dflt => .correct S ch scan dflt

/-- The time it takes, in units of `tscale`. -/
def Ev.time : Ev → ℝ
  | .predict _ _ dT _ => dT
  | .correct .. => 0

/-- The probability to survive it. -/
noncomputable def Ev.survive : Ev → ℝ
  | .predict pS _ dT _ => pS ^ dT
  | .correct .. => 1

/-- A prediction has at least the noise `q`, and time does not run backwards. -/
def Ev.Noisy (q : ℝ) : Ev → Prop
  | .predict _ q' dT _ => q ≤ q' ∧ 0 ≤ dT
  | .correct .. => True

/-- The call is not a correction in which target `a` has a part in state `s`. -/
def Ev.Unseen (k : Opts) (a : Nat) (s : St Pdf) : Ev → Prop
  | .predict .. => True
  | .correct S _ scan _ => ¬ Gated (env k) S scan s a

/-- The covariance of every component is at least the noise of time `T`. -/
def Aged (q T : ℝ) (p : Pdf) : Prop := ∀ g ∈ p.mix.c, (g.x.2 - cvQ q T).PosSemidef

theorem cvQ_compose (q a b : ℝ) : cvF b * cvQ q a * (cvF b)ᵀ + cvQ q b = cvQ q (a + b) := by
  ext i j
  fin_cases i <;> fin_cases j <;>
    simp [cvF, cvQ, Matrix.mul_apply, Fin.sum_univ_four, Matrix.vecMul, dotProduct] <;> ring

theorem cvQ_sub (q q' b : ℝ) : cvQ q' b - cvQ q b = cvQ (q' - q) b := by
  ext i j
  fin_cases i <;> fin_cases j <;> simp [cvQ] <;> ring

/-- The components after a prediction. -/
theorem predict_comps {k : Opts} {F Q : Matrix (Fin 4) (Fin 4) ℝ} {m : Motion Pdf}
    (hm : m.pdf = moveMix F Q) {t : Tgt Pdf} (hs : (t.pdf.mix.c.map GM.Cmp.w).sum = 1) :
    (∃ f : Cmp → Fin 4 → ℝ, (predictTgt (env k) m t).pdf.mix.c =
      t.pdf.mix.c.map fun g => ⟨(f g, F * g.x.2 * Fᵀ + Q), g.w⟩) ∧
    (predictTgt (env k) m t).r = t.r * m.factor := by
  set p := m.pdf (toLocal (pos t.pdf) t.pdf) with hp
  have hpc : p.mix.c = t.pdf.mix.c.map fun g => ofG (linearUpdate F Q
      (toG ⟨(setHead (CF.ll2ne (head g.x.1) (pos t.pdf)) g.x.1, g.x.2), g.w⟩)) := by
    rw [hp, hm]
    simp only [moveMix, toLocal, cLocal, List.map_map]
    rfl
  have hps : (p.mix.c.map GM.Cmp.w).sum = 1 := by
    rw [hpc, List.map_map, ← hs]
    rfl
  have hb : 1 / 100000000 < (p.mix.c.map GM.Cmp.w).sum := by rw [hps]; norm_num
  have he : (GM.normalize p.mix).eta = 1 := by
    rw [((GM.C37_normalize p.mix).1 hb).2.1, hps]
  constructor
  · refine ⟨fun g => setHead (CF.ne2ll (head (linearUpdate F Q
      (toG ⟨(setHead (CF.ll2ne (head g.x.1) (pos t.pdf)) g.x.1, g.x.2), g.w⟩)).x) p.origin)
      (linearUpdate F Q
      (toG ⟨(setHead (CF.ll2ne (head g.x.1) (pos t.pdf)) g.x.1, g.x.2), g.w⟩)).x, ?_⟩
    show cGlobal p.origin (GM.normalize p.mix).c = _
    rw [GM.normalize_c _ hb, hps, hpc]
    simp only [cGlobal, List.map_map]
    apply List.map_congr_left
    intro g _
    simp only [Function.comp, ofG, toG, linearUpdate, div_one]
  · show t.r * m.factor * (GM.normalize p.mix).eta = _
    rw [he, mul_one]

theorem aged_predict {k : Opts} {pS q q' T dT : ℝ} {t : Tgt Pdf} (hq : q ≤ q') (hT : 0 ≤ dT)
    (hs : (t.pdf.mix.c.map GM.Cmp.w).sum = 1) (h : Aged q T t.pdf) :
    Aged q (T + dT) (predictTgt (env k) (cv pS q' dT) t).pdf := by
  obtain ⟨⟨f, e⟩, _⟩ := predict_comps (k := k) (m := cv pS q' dT) rfl hs
  intro g' hg'
  rw [e] at hg'
  obtain ⟨g, hg, rfl⟩ := List.mem_map.1 hg'
  show (cvF dT * g.x.2 * (cvF dT)ᵀ + cvQ q' dT - cvQ q (T + dT)).PosSemidef
  have e1 : cvF dT * g.x.2 * (cvF dT)ᵀ + cvQ q' dT - cvQ q (T + dT) =
      cvF dT * (g.x.2 - cvQ q T) * (cvF dT)ᵀ + cvQ (q' - q) dT := by
    rw [← cvQ_compose, ← cvQ_sub, Matrix.mul_sub, Matrix.sub_mul]
    abel
  rw [e1]
  exact (Kalman.psd_conj (h g hg) (cvF dT)).add ((Kalman.C43_cv_noise _ _).1 (sub_nonneg.2 hq) hT)

/-- The norm that is compared with `cov_lim` is at least that of the noise. -/
theorem aged_norm {q T : ℝ} {p : Pdf} (hw : ∀ g ∈ p.mix.c, 0 ≤ g.w)
    (hs : (p.mix.c.map GM.Cmp.w).sum = 1) (h : Aged q T p) : q * (T ^ 3 / 3) ≤ covNorm p := by
  have hd : ∀ (x : Fin 4 → ℝ) (c : List Cmp), (∀ g ∈ c, 0 ≤ g.w ∧ q * (T ^ 3 / 3) ≤ g.x.2 0 0) →
      (c.map GM.Cmp.w).sum * (q * (T ^ 3 / 3)) ≤ Kalman.covAt (c.map toG) x 0 0 := by
    intro x c hc
    rw [Kalman.covAt_eq]
    induction c with
    | nil => simp
    | cons g l ih =>
      have h1 := ih fun g' hg' => hc g' (List.mem_cons_of_mem _ hg')
      obtain ⟨h2, h3⟩ := hc g List.mem_cons_self
      simp only [List.map_cons, List.sum_cons, Matrix.add_apply, Matrix.smul_apply, smul_eq_mul,
        vecMulVec_apply, Pi.sub_apply, add_mul]
      have h4 : q * (T ^ 3 / 3) ≤ (toG g).P 0 0 + ((toG g).x 0 - x 0) * ((toG g).x 0 - x 0) :=
        h3.trans (le_add_of_nonneg_right (mul_self_nonneg _))
      have h5 := mul_le_mul_of_nonneg_left h4 h2
      exact add_le_add h5 h1
  have h00 := hd (Kalman.mean (p.mix.c.map toG)) p.mix.c fun g hg => ⟨hw g hg, by
    have := (h g hg).diag_nonneg (i := 0)
    rw [Matrix.sub_apply, sub_nonneg] at this
    refine le_trans (le_of_eq ?_) this
    simp only [cvQ, Matrix.smul_apply, Matrix.of_apply, Matrix.cons_val', Matrix.cons_val_zero,
      smul_eq_mul]
    ring⟩
  rw [hs, one_mul] at h00
  unfold covNorm Kalman.cov
  refine h00.trans ?_
  apply Real.le_sqrt_of_sq_le
  generalize Kalman.covAt (p.mix.c.map toG) (Kalman.mean (p.mix.c.map toG)) = A
  nlinarith [mul_self_nonneg (A 0 1), mul_self_nonneg (A 1 0), mul_self_nonneg (A 1 1)]

theorem follow {k : Opts} (hk : OptsOk k) {prm : Params} (hB0 : 0 ≤ prm.rBmax)
    (hB1 : prm.rBmax ≤ 1) {q : ℝ} {a : Nat} {fuel : Nat} :
    ∀ (later : List Ev) (calls : List (Call Pdf Rpt)) (s : St Pdf) (t : Tgt Pdf) (T : ℝ),
    (∀ c ∈ calls, SysCall k prm c) → run (env k) prm fuel calls St.empty = some s →
    (∀ e ∈ later, SysCall k prm e.call ∧ e.Noisy q) →
    (∀ l1 e l2 st, later = l1 ++ e :: l2 → run (env k) prm fuel (l1.map Ev.call) s = some st →
      e.Unseen k a st) →
    s.heap a = some t → Aged q T t.pdf → (covNorm t.pdf ≤ prm.covlim ∨ T = 0) →
    ∀ s', run (env k) prm fuel (later.map Ev.call) s = some s' →
    (∃ l1 l2 st, later = l1 ++ l2 ∧ run (env k) prm fuel (l1.map Ev.call) s = some st ∧
      st.heap a = none) ∨
    ∃ u, s'.heap a = some u ∧ u.id = t.id ∧ u.r = t.r * (later.map Ev.survive).prod ∧
      Aged q (T + (later.map Ev.time).sum) u.pdf ∧
      (covNorm u.pdf ≤ prm.covlim ∨ T + (later.map Ev.time).sum = 0) := by
  intro later
  induction later with
  | nil =>
    intro calls s t T _ _ _ _ ht hA hcov s' e
    simp only [List.map_nil, run, Option.some.injEq] at e
    subst e
    exact Or.inr ⟨t, ht, rfl, by simp, by simpa using hA, by simpa using hcov⟩
  | cons e l ih =>
    intro calls s t T hcalls hrun hsys hun ht hA hcov s' hs'
    obtain ⟨he, hn⟩ := hsys e List.mem_cons_self
    have hune : e.Unseen k a s := hun [] e l s rfl rfl
    simp only [List.map_cons, run] at hs'
    cases hstep : step (env k) prm fuel s e.call with
    | none => rw [hstep] at hs'; cases hs'
    | some s1 =>
      rw [hstep] at hs'
      have hcalls1 : ∀ c ∈ calls ++ [e.call], SysCall k prm c := by
        intro c hc
        rcases List.mem_append.1 hc with h | h
        · exact hcalls c h
        · rw [List.mem_singleton.1 h]; exact he
      have hrun1 : run (env k) prm fuel (calls ++ [e.call]) St.empty = some s1 := by
        rw [run_append, hrun, Option.bind_some]
        simp only [run, hstep]
      have hun1 : ∀ l1 e' l2 st, l = l1 ++ e' :: l2 →
          run (env k) prm fuel (l1.map Ev.call) s1 = some st → e'.Unseen k a st := by
        intro l1 e' l2 st h1 h2
        refine hun (e :: l1) e' l2 st (by rw [h1]; rfl) ?_
        simp only [List.map_cons, run, hstep]
        exact h2
      have lift : (∃ l1 l2 st, l = l1 ++ l2 ∧ run (env k) prm fuel (l1.map Ev.call) s1 = some st ∧
          st.heap a = none) → ∃ l1 l2 st, e :: l = l1 ++ l2 ∧
          run (env k) prm fuel (l1.map Ev.call) s = some st ∧ st.heap a = none := by
        rintro ⟨l1, l2, st, h1, h2, h3⟩
        refine ⟨e :: l1, l2, st, by rw [h1]; rfl, ?_, h3⟩
        simp only [List.map_cons, run, hstep]
        exact h2
      have hsys1 : ∀ e ∈ l, SysCall k prm e.call ∧ e.Noisy q := fun e' h =>
        hsys e' (List.mem_cons_of_mem _ h)
      have hgood := C66_densities_proper hk hB0 hB1 hcalls hrun a t ht
      have hok : ∀ c ∈ calls, CallOk (env k) c := fun c h => sysCall_ok (hcalls c h)
      cases h1 : s1.heap a with
      | none =>
        exact Or.inl ⟨[e], l, s1, rfl, by simp only [List.map_cons, List.map_nil, run, hstep], h1⟩
      | some t1 =>
        have next : t1.id = t.id ∧ t1.r = t.r * e.survive ∧ Aged q (T + e.time) t1.pdf ∧
            (covNorm t1.pdf ≤ prm.covlim ∨ T + e.time = 0) := by
          cases e with
          | predict pS q' dT ord =>
            obtain ⟨s2, hp, hfate⟩ := C28_predict (env_box k) prm fuel calls hok s hrun (cv pS q' dT)
              he.1
            have : s2 = s1 := by
              have h2 : predict (env k) prm (cv pS q' dT) ord s = some s1 := hstep
              rw [hp] at h2
              exact Option.some.inj h2
            subst this
            obtain ⟨_, hc1, t', ht', rfl⟩ := (hfate a).1 t1 h1
            rw [ht] at ht'
            cases ht'
            exact ⟨rfl, (predict_comps (k := k) (m := cv pS q' dT) rfl hgood.2.2.2.2.1).2,
              aged_predict hn.1 hn.2 hgood.2.2.2.2.1 hA, Or.inl hc1⟩
          | correct S ch scan dflt =>
            have h2 : (correct (env k) S prm ch fuel scan dflt s).map (·.1) = some s1 := hstep
            obtain ⟨⟨s2, reps⟩, h3, rfl⟩ := Option.map_eq_some_iff.1 h2
            have hin : a ∈ s.targets := ((C26_index_coherent (env_box k) prm fuel calls hok s hrun).1.live a).2
              (by rw [ht]; rfl)
            have h4 := (C28_correct (env_box k) prm fuel calls hok s hrun S ch scan dflt
              (sysCall_ok he) s2 reps h3).1 a hin hune
            rw [h4, ht] at h1
            cases h1
            refine ⟨rfl, by simp [Ev.survive], by simpa [Ev.time] using hA, by simpa [Ev.time] using hcov⟩
        obtain ⟨n1, n2, n3, n4⟩ := next
        rcases ih _ s1 t1 (T + e.time) hcalls1 hrun1 hsys1 hun1 h1 n3 n4 s' hs' with h | h
        · exact Or.inl (lift h)
        · obtain ⟨u, u1, u2, u3, u4, u5⟩ := h
          refine Or.inr ⟨u, u1, u2.trans n1, ?_, ?_, ?_⟩
          · rw [u3, n2, List.map_cons, List.prod_cons, mul_assoc]
          · rw [List.map_cons, List.sum_cons, ← add_assoc]; exact u4
          · rw [List.map_cons, List.sum_cons, ← add_assoc]; exact u5

theorem aged_zero {k : Opts} (hk : OptsOk k) {prm : Params} (hB0 : 0 ≤ prm.rBmax)
    (hB1 : prm.rBmax ≤ 1) {calls : List (Call Pdf Rpt)} (hc : ∀ c ∈ calls, SysCall k prm c)
    {fuel : Nat} {s : St Pdf} (e : run (env k) prm fuel calls St.empty = some s) {a : Nat}
    {t : Tgt Pdf} (ht : s.heap a = some t) (q : ℝ) : Aged q 0 t.pdf := by
  intro g hg
  have h0 : cvQ q 0 = 0 := by
    ext i j
    fin_cases i <;> fin_cases j <;> simp [cvQ]
  rw [h0, sub_zero]
  exact ((C66_densities_proper hk hB0 hB1 hc e a t ht).2.2.2.1 g hg).2.posSemidef

/-- **C89** After any history a target that has no part in any later correction is erased before its
predictions with the constant-velocity model add up to a time `T` with `cov_lim < q T³ / 3`, where `q`
is the least noise of these predictions: whatever its density, its existence probability and the
other targets. -/
theorem C89_forgotten {k : Opts} (hk : OptsOk k) {prm : Params} (hB0 : 0 ≤ prm.rBmax)
    (hB1 : prm.rBmax ≤ 1) (hL : 0 ≤ prm.covlim) {calls : List (Call Pdf Rpt)}
    (hc : ∀ c ∈ calls, SysCall k prm c) {fuel : Nat} {s : St Pdf}
    (e : run (env k) prm fuel calls St.empty = some s) {q : ℝ} {a : Nat} {later : List Ev}
    (hl : ∀ e ∈ later, SysCall k prm e.call ∧ e.Noisy q)
    (hun : ∀ l1 e l2 st, later = l1 ++ e :: l2 →
      run (env k) prm fuel (l1.map Ev.call) s = some st → e.Unseen k a st) {s' : St Pdf}
    (e' : run (env k) prm fuel (later.map Ev.call) s = some s')
    (hT : prm.covlim < q * ((later.map Ev.time).sum ^ 3 / 3)) :
    ∃ l1 l2 st, later = l1 ++ l2 ∧ run (env k) prm fuel (l1.map Ev.call) s = some st ∧
      st.heap a = none := by
  cases ht : s.heap a with
  | none => exact ⟨[], later, s, rfl, rfl, ht⟩
  | some t =>
    rcases follow hk hB0 hB1 later calls s t 0 hc e hl hun ht (aged_zero hk hB0 hB1 hc e ht q)
      (Or.inr rfl) s' e' with h | ⟨u, hu, _, _, hA, hcov⟩
    · exact h
    · exfalso
      rw [zero_add] at hA hcov
      have hg := C66_densities_proper hk hB0 hB1 (calls := calls ++ later.map Ev.call)
        (fuel := fuel) (s := s') (fun c h => by
          rcases List.mem_append.1 h with h | h
          · exact hc c h
          · obtain ⟨x, hx, rfl⟩ := List.mem_map.1 h
            exact (hl x hx).1) (by rw [run_append, e, Option.bind_some, e']) a u hu
      have hn := aged_norm (fun g h => (hg.2.2.2.1 g h).1) hg.2.2.2.2.1 hA
      rcases hcov with h | h
      · linarith
      · rw [h] at hT
        norm_num at hT
        linarith

/-- **C89** While it lives it keeps its identifier, and its existence probability shrinks by the
probabilities to survive only. -/
theorem C89_fades {k : Opts} (hk : OptsOk k) {prm : Params} (hB0 : 0 ≤ prm.rBmax)
    (hB1 : prm.rBmax ≤ 1) {calls : List (Call Pdf Rpt)}
    (hc : ∀ c ∈ calls, SysCall k prm c) {fuel : Nat} {s : St Pdf}
    (e : run (env k) prm fuel calls St.empty = some s) {a : Nat} {t : Tgt Pdf}
    (ht : s.heap a = some t) {later : List Ev}
    (hl : ∀ e ∈ later, SysCall k prm e.call ∧ e.Noisy 0)
    (hun : ∀ l1 e l2 st, later = l1 ++ e :: l2 →
      run (env k) prm fuel (l1.map Ev.call) s = some st → e.Unseen k a st) {s' : St Pdf}
    (e' : run (env k) prm fuel (later.map Ev.call) s = some s') :
    (∃ l1 l2 st, later = l1 ++ l2 ∧ run (env k) prm fuel (l1.map Ev.call) s = some st ∧
      st.heap a = none) ∨
    ∃ u, s'.heap a = some u ∧ u.id = t.id ∧ u.r = t.r * (later.map Ev.survive).prod := by
  rcases follow hk hB0 hB1 later calls s t 0 hc e hl hun ht (aged_zero hk hB0 hB1 hc e ht 0)
    (Or.inr rfl) s' e' with h | ⟨u, hu, h1, h2, _, _⟩
  · exact Or.inl h
  · exact Or.inr ⟨u, hu, h1, h2⟩

theorem single_norm {p : Pdf} {g : Cmp} (h : p.mix.c = [g]) (hw : g.w = 1) :
    covNorm p = Real.sqrt (g.x.2 0 0 * g.x.2 0 0 + g.x.2 0 1 * g.x.2 0 1 + g.x.2 1 0 * g.x.2 1 0 +
      g.x.2 1 1 * g.x.2 1 1) := by
  have : Kalman.cov (p.mix.c.map toG) = g.x.2 := by
    unfold Kalman.cov
    rw [Kalman.covAt_eq, Kalman.mean_eq, h]
    simp [toG, hw]
  unfold covNorm
  rw [this]

/-- One prediction without noise keeps a target of one Gaussian. -/
theorem nm_step {k : Opts} {prm : Params} {fuel : Nat} {calls : List (Call Pdf Rpt)}
    (hc : ∀ c ∈ calls, CallOk (env k) c) {s : St Pdf}
    (e : run (env k) prm fuel calls St.empty = some s) {a : Nat} {t : Tgt Pdf}
    (ht : s.heap a = some t) {g : Cmp} (hg : t.pdf.mix.c = [g]) (hw : g.w = 1)
    (hr : prm.rlim ≤ t.r) (hcov : covNorm t.pdf ≤ prm.covlim) :
    ∃ s', predict (env k) prm (nm 1 0) id s = some s' ∧ ∃ u, s'.heap a = some u ∧ u.id = t.id ∧
      u.r = t.r ∧ covNorm u.pdf = covNorm t.pdf ∧ ∃ g', u.pdf.mix.c = [g'] ∧ g'.w = 1 := by
  obtain ⟨s', hp, hf⟩ := C28_predict (env_box k) prm fuel calls hc s e (nm 1 0) (ord := id)
    (fun l => List.Perm.refl _)
  have hs : (t.pdf.mix.c.map GM.Cmp.w).sum = 1 := by rw [hg]; simp [hw]
  obtain ⟨⟨f, e1⟩, e2⟩ := predict_comps (k := k) (m := nm 1 0) (F := 1) (Q := 0) rfl hs
  rw [hg] at e1
  simp only [List.map_cons, List.map_nil, Matrix.one_mul, Matrix.transpose_one, Matrix.mul_one,
    add_zero] at e1
  have e3 : (predictTgt (env k) (nm 1 0) t).r = t.r := by
    rw [e2]; exact mul_one _
  have e4 : covNorm (predictTgt (env k) (nm 1 0) t).pdf = covNorm t.pdf := by
    rw [single_norm e1 hw, single_norm hg hw]
  refine ⟨s', hp, ?_⟩
  cases h : s'.heap a with
  | none =>
    exfalso
    rcases (hf a).2 t ht h with h1 | h1
    · rw [e3] at h1; linarith
    · have : prm.covlim < covNorm (predictTgt (env k) (nm 1 0) t).pdf := h1
      rw [e4] at this; linarith
  | some u =>
    obtain ⟨_, _, t', ht', rfl⟩ := (hf a).1 u h
    rw [ht] at ht'
    cases ht'
    exact ⟨_, rfl, rfl, e3, e4, _, e1, hw⟩

theorem nm_steps {k : Opts} {prm : Params} {fuel : Nat} (n : Nat) :
    ∀ {calls : List (Call Pdf Rpt)}, (∀ c ∈ calls, CallOk (env k) c) → ∀ {s : St Pdf},
    run (env k) prm fuel calls St.empty = some s → ∀ {a : Nat} {t : Tgt Pdf},
    s.heap a = some t → ∀ {g : Cmp}, t.pdf.mix.c = [g] → g.w = 1 →
    prm.rlim ≤ t.r → covNorm t.pdf ≤ prm.covlim →
    ∃ s', run (env k) prm fuel (List.replicate n (.predict (nm 1 0) id)) s = some s' ∧
      ∃ u, s'.heap a = some u ∧ u.id = t.id ∧ u.r = t.r := by
  induction n with
  | zero => intro calls _ s _ a t ht _ _ _ _ _; exact ⟨s, rfl, t, ht, rfl, rfl⟩
  | succ n ih =>
    intro calls hc s e a t ht g hg hw hr hcov
    obtain ⟨s1, h1, u, hu, i1, r1, c1, g', hg', hw'⟩ := nm_step hc e ht hg hw hr hcov
    have hst : step (env k) prm fuel s (.predict (nm 1 0) id) = some s1 := h1
    obtain ⟨s', h2, v, hv, i2, r2⟩ := ih (calls := calls ++ [.predict (nm 1 0) id])
      (fun c h => by
        rcases List.mem_append.1 h with h | h
        · exact hc c h
        · rw [List.mem_singleton.1 h]; exact fun l => List.Perm.refl _)
      (by rw [run_append, e, Option.bind_some]; simp only [run, hst]) hu hg' hw' (by rw [r1]; exact hr)
      (by rw [c1]; exact hcov)
    refine ⟨s', ?_, v, hv, i2.trans i1, r2.trans r1⟩
    rw [List.replicate_succ]
    simp only [run, hst]
    exact h2

/-- The target of the examples. -/
theorem exNewborn : ∃ s a t g, run (env exOpts) exPrm 0 (exHist.take 1) St.empty = some s ∧
    s.heap a = some t ∧ t.r = 1 / 2 ∧ t.pdf.mix.c = [g] ∧ g.w = 1 ∧
    covNorm t.pdf ≤ 150 := by
  have hok := sysCall_ok (exHist_ok _ List.mem_cons_self)
  obtain ⟨s, reps, new, h1, h2, _, h3, h4, _⟩ := C58_unreached_scan (env_box exOpts) exPrm 0 []
    (by simp) St.empty rfl (sensor exOpts exSens) exCh exScan ⟨exRpt 0 0, none, 0⟩ hok
    (by rintro a ⟨t, ht, _⟩; simp [St.empty] at ht)
  have hl : new.length = 2 := h4 (by show (1 : ℝ) / 20 ≤ (2 : ℕ); norm_num)
    (by show (1 : ℝ) / 20 ≤ 1 / (2 : ℕ); norm_num)
  have hrun : run (env exOpts) exPrm 0 (exHist.take 1) St.empty = some s := by
    simp only [exHist, List.take_succ_cons, List.take_zero, run, step, h1, Option.map_some]
  obtain ⟨a, ha⟩ := List.exists_mem_of_length_pos (by omega : 0 < new.length)
  obtain ⟨t, ht, hr⟩ := h3 a ha
  obtain ⟨y, hy, o, ho⟩ := first_scan (env_box exOpts) exPrm 0 (sensor exOpts exSens) exCh exScan
    ⟨exRpt 0 0, none, 0⟩ hok s reps h1 a t ht
  have hR : y.val.1.P = 1 := by
    simp only [exScan, List.mem_cons, List.not_mem_nil, or_false] at hy
    rcases hy with rfl | rfl <;> rfl
  obtain ⟨g, hg, hw, hP⟩ : ∃ g : Cmp, t.pdf.mix.c = [g] ∧ g.w = 1 ∧
      g.x.2 = (Kalman.init1 (exSens.pv) y.val.1).P := by
    rw [ho]
    exact ⟨_, rfl, rfl, rfl⟩
  refine ⟨s, a, t, g, hrun, ht, ?_, hg, hw, ?_⟩
  · rw [hr]
    show min ((1 : ℝ) / (2 : ℕ)) (4 / 5) = 1 / 2
    norm_num
  · rw [single_norm hg hw, hP]
    apply Real.sqrt_le_iff.2
    simp [Kalman.init1, hR]
    norm_num

/-- **C89 refuted for the other model** With the defaults of `NM` (`models.hpp:58-72`) a target that is
never seen again is not forgotten after any number of predictions, and its existence probability
stays. -/
theorem C89_nm_refuted : ¬ ∀ (calls : List (Call Pdf Rpt)) (s : St Pdf) (a : Nat) (t : Tgt Pdf),
    (∀ c ∈ calls, SysCall exOpts exPrm c) → run (env exOpts) exPrm 0 calls St.empty = some s →
    s.heap a = some t → ∃ n s', run (env exOpts) exPrm 0
      (List.replicate n (.predict (nm 1 0) id)) s = some s' ∧
      ∀ u, s'.heap a = some u → u.r < t.r := by
  intro h
  obtain ⟨s, a, t, g, h1, h2, h3, h4, h5, h6⟩ := exNewborn
  obtain ⟨n, s', h7, h8⟩ := h _ s a t (fun c h => exHist_ok c (List.mem_of_mem_take h)) h1 h2
  obtain ⟨s1, h9, u, hu, _, hr⟩ := nm_steps n
    (fun c h => sysCall_ok (exHist_ok c (List.mem_of_mem_take h))) h1 h2 h4 h5
    (by rw [h3]; show (1 : ℝ) / 20 ≤ 1 / 2; norm_num) h6
  rw [h9] at h7
  cases h7
  have := h8 u hu
  rw [hr] at this
  exact lt_irrefl _ this

/-- Eight predictions of one time unit with the noise of the default. -/
noncomputable def exWait : List Ev := List.replicate 8 (.predict (9 / 10) 1 1 id)

theorem exWait_ok : ∀ e ∈ exWait, SysCall exOpts exPrm e.call ∧ e.Noisy 1 := by
  intro e he
  rw [List.eq_of_mem_replicate he]
  exact ⟨⟨fun l => List.Perm.refl _, Or.inl ⟨_, _, _, by norm_num, by norm_num, by norm_num,
      by norm_num, rfl⟩⟩, le_refl _, zero_le_one⟩

/-- With the default limit of 150 both targets of the first scan are forgotten within eight time
units. -/
example : ∃ s a t, run (env exOpts) exPrm 0 (exHist.take 1) St.empty = some s ∧
    s.heap a = some t ∧ t.r = 1 / 2 ∧ ∃ l1 l2 st, exWait = l1 ++ l2 ∧
      run (env exOpts) exPrm 0 (l1.map Ev.call) s = some st ∧ st.heap a = none := by
  obtain ⟨s, a, t, g, h1, h2, h3, _⟩ := exNewborn
  refine ⟨s, a, t, h1, h2, h3, ?_⟩
  have hc : ∀ c ∈ exHist.take 1, SysCall exOpts exPrm c := fun c h =>
    exHist_ok c (List.mem_of_mem_take h)
  have hdef : ∀ (n : Nat) (calls : List (Call Pdf Rpt)) (s : St Pdf),
      (∀ c ∈ calls, CallOk (env exOpts) c) → run (env exOpts) exPrm 0 calls St.empty = some s →
      ∃ s', run (env exOpts) exPrm 0 ((List.replicate n (Ev.predict (9 / 10) 1 1 id)).map Ev.call) s =
        some s' := by
    intro n
    induction n with
    | zero => intro calls s _ _; exact ⟨s, rfl⟩
    | succ n ih =>
      intro calls s hok e
      obtain ⟨s1, p1, _⟩ := C28_predict (env_box exOpts) exPrm 0 calls hok s e (cv (9 / 10) 1 1)
        (ord := id) (fun l => List.Perm.refl _)
      have hst : step (env exOpts) exPrm 0 s (.predict (cv (9 / 10) 1 1) id) = some s1 := p1
      obtain ⟨s', h⟩ := ih (calls ++ [.predict (cv (9 / 10) 1 1) id]) s1 (fun c h => by
        rcases List.mem_append.1 h with h | h
        · exact hok c h
        · rw [List.mem_singleton.1 h]; exact fun l => List.Perm.refl _)
        (by rw [run_append, e, Option.bind_some]; simp only [run, hst])
      refine ⟨s', ?_⟩
      rw [List.replicate_succ, List.map_cons]
      simp only [run, Ev.call, hst]
      exact h
  obtain ⟨s', e'⟩ := hdef 8 _ s (fun c h => sysCall_ok (hc c h)) h1
  refine C89_forgotten exOpts_ok (by show (0 : ℝ) ≤ 4 / 5; norm_num)
    (by show (4 : ℝ) / 5 ≤ 1; norm_num) (by show (0 : ℝ) ≤ 150; norm_num) hc h1 (q := 1) exWait_ok
    ?_ (s' := s') e' ?_
  · intro l1 e l2 st hl _
    have : e ∈ exWait := by rw [hl]; simp
    rw [List.eq_of_mem_replicate this]
    trivial
  · show (150 : ℝ) < 1 * ((exWait.map Ev.time).sum ^ 3 / 3)
    simp only [exWait, List.map_replicate, List.sum_replicate, Ev.time]
    norm_num

end Verif.System
