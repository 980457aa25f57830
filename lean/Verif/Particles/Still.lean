import Verif.Particles.Weights

/-!
# C126, particles: predictions keep the velocity
-/

namespace Verif.Particles

open Verif.Tracker Matrix
open Verif.System (LL Rpt head setHead)

/-- Weights and velocities of the particles, `pf.hpp:51-52`. -/
def moving (p : Pdf) : List (ℝ × ℝ × ℝ) := p.pf.c.map fun g => (g.w, g.x 2, g.x 3)

theorem moving_mean (p : Pdf) : mean p.pf.c 2 = ((moving p).map fun y => y.1 * y.2.1).sum ∧
    mean p.pf.c 3 = ((moving p).map fun y => y.1 * y.2.2).sum := by
  unfold moving mean
  constructor
  all_goals
    induction p.pf.c with
    | nil => simp
    | cons g l ih =>
      simp only [List.map_cons, List.sum_cons, Pi.add_apply] at ih ⊢
      rw [ih]
      rfl

theorem moving_step {k : Opts} {F Q : Matrix (Fin 4) (Fin 4) ℝ} {f : ℝ} {t : Tgt Pdf}
    (hF : ∀ x : Fin 4 → ℝ, (F *ᵥ x) 2 = x 2 ∧ (F *ᵥ x) 3 = x 3) (h : Sound k.N t.pdf.pf.c) :
    moving (predictTgt (env k) ⟨linearUpdate F Q, f⟩ t).pdf = moving t.pdf := by
  set p := linearUpdate F Q (toLocal (pos t.pdf) t.pdf) with hp
  have hpc : p.pf.c = t.pdf.pf.c.map fun g => ⟨F *ᵥ setHead (CF.ll2ne (head g.x) (pos t.pdf)) g.x, g.w⟩ := by
    rw [hp]
    simp only [linearUpdate, toLocal, List.map_map]
    rfl
  have hsum : PF.psum p.pf.c = (t.pdf.pf.c.map GM.Cmp.w).sum := by
    rw [PF.psum_eq, hpc, List.map_map]
    rfl
  have hn : (PF.normalize p.pf).c = p.pf.c := by
    unfold PF.normalize
    rw [hsum]
    rcases h.2.2 with h1 | h1
    · rw [h1, if_pos (by norm_num)]
      simp
    · rw [if_neg (not_lt.2 h1)]
  have hc : (predictTgt (env k) ⟨linearUpdate F Q, f⟩ t).pdf.pf.c.map (fun g => (g.w, g.x 2, g.x 3)) =
      (PF.normalize p.pf).c.map fun g => (g.w, g.x 2, g.x 3) := by
    show (toGlobal k { p with pf := PF.normalize p.pf }).pf.c.map _ = _
    unfold toGlobal updateBox
    simp only
    split <;> · rw [List.map_map]; rfl
  unfold moving
  rw [hc, hn, hpc, List.map_map]
  apply List.map_congr_left
  intro g _
  have h2 := hF (setHead (CF.ll2ne (head g.x) (pos t.pdf)) g.x)
  exact Prod.ext rfl (Prod.ext h2.1 h2.2)

/-- A prediction by a user, `models.hpp:6-72`, in any order of the targets. -/
def Predicts (c : Call Pdf Rpt) : Prop := ∃ m ord, c = .predict m ord ∧ (∀ l, (ord l).Perm l) ∧
  ((∃ pS q dT, m = cv pS q dT) ∨ ∃ pS Q, m = nm pS Q)

theorem model_step {k : Opts} {m : Motion Pdf} (h : (∃ pS q dT, m = cv pS q dT) ∨ ∃ pS Q, m = nm pS Q)
    {t : Tgt Pdf} (hs : Sound k.N t.pdf.pf.c) :
    moving (predictTgt (env k) m t).pdf = moving t.pdf ∧ Sound k.N (predictTgt (env k) m t).pdf.pf.c := by
  rcases h with ⟨pS, q, dT, rfl⟩ | ⟨pS, Q, rfl⟩
  · refine ⟨moving_step (fun x => ?_) hs, sound_predict hs⟩
    constructor <;> simp [Kalman.cvF, Matrix.mulVec, dotProduct, Fin.sum_univ_four]
  · exact ⟨moving_step (fun x => by simp) hs, sound_predict hs⟩

theorem predicts_run {k : Opts} {prm : Params} {fuel : Nat} : ∀ (ps : List (Call Pdf Rpt)) (s s2 : St Pdf),
    (∀ c ∈ ps, Predicts c) → Ok (env k) s (fun _ => False) →
    (∀ a t, s.heap a = some t → Sound k.N t.pdf.pf.c) →
    run (env k) prm fuel ps s = some s2 → ∀ a u, s2.heap a = some u → ∃ t, s.heap a = some t ∧ u.id = t.id ∧
      moving u.pdf = moving t.pdf := by
  intro ps
  induction ps with
  | nil =>
    intro s s2 _ _ _ e a u hu
    simp only [run, Option.some.injEq] at e
    subst e
    exact ⟨u, hu, rfl, rfl⟩
  | cons c l ih =>
    intro s s2 hp hs h1 e a u hu
    obtain ⟨m, ord, rfl, ho, hm⟩ := hp c List.mem_cons_self
    obtain ⟨s1, e1, hs1, _, q1, _⟩ := predict_spec (env_box k) prm m ho hs
    simp only [run, step, e1] at e
    have hback : ∀ a t1, s1.heap a = some t1 → ∃ t, s.heap a = some t ∧ t1 = predictTgt (env k) m t := by
      intro a t1 h
      rw [q1, Option.filter_eq_some_iff, Option.map_eq_some_iff] at h
      obtain ⟨⟨t, ht, rfl⟩, _⟩ := h
      exact ⟨t, ht, rfl⟩
    have h1' : ∀ a t, s1.heap a = some t → Sound k.N t.pdf.pf.c := by
      intro a t1 h
      obtain ⟨t, ht, rfl⟩ := hback a t1 h
      exact (model_step hm (h1 a t ht)).2
    obtain ⟨t1, ht1, hid, hmv⟩ := ih s1 s2 (fun c h => hp c (List.mem_cons_of_mem _ h)) hs1 h1' e a u hu
    obtain ⟨t, ht, rfl⟩ := hback a t1 ht1
    exact ⟨t, ht, hid, hmv.trans (model_step hm (h1 a t ht)).1⟩

/-- **C126, particles** After any history of the tracker with particles, any number of predictions with any models and
time steps: a target that is left has its number, and each of its particles the weight and the velocity that it had
before, so the velocity reported for it is the same. -/
theorem C126_particles {k : Opts} (hk : GM.SortOk k.srt) (hN : 0 < k.N) {prm : Params} {fuel : Nat}
    {calls : List (Call Pdf Rpt)} (hc : ∀ c ∈ calls, WCall k c) {s s2 : St Pdf}
    (e : run (env k) prm fuel calls St.empty = some s)
    {ps : List (Call Pdf Rpt)} (hp : ∀ c ∈ ps, Predicts c) (e2 : run (env k) prm fuel ps s = some s2)
    {a : Nat} {u : Tgt Pdf} (hu : s2.heap a = some u) :
    ∃ t, s.heap a = some t ∧ u.id = t.id ∧
      u.pdf.pf.c.map (fun g => (g.w, g.x 2, g.x 3)) = t.pdf.pf.c.map (fun g => (g.w, g.x 2, g.x 3)) ∧
      mean u.pdf.pf.c 2 = mean t.pdf.pf.c 2 ∧ mean u.pdf.pf.c 3 = mean t.pdf.pf.c 3 := by
  have hs := run_inv (env_box k) (Inv.empty (env k)) (fun c h => pCall_ok (hc c h).p) e
  obtain ⟨t, ht, hid, hmv⟩ := predicts_run ps s s2 hp hs.ok (fun a t ht => by
    obtain ⟨h1, h2, h3⟩ := C124_weights hk hN hc e a t ht
    refine ⟨h1, h2, ?_⟩
    norm_num at h3 ⊢
    exact h3) e2 a u hu
  refine ⟨t, ht, hid, hmv, ?_, ?_⟩
  · rw [(moving_mean u.pdf).1, hmv, ← (moving_mean t.pdf).1]
  · rw [(moving_mean u.pdf).2, hmv, ← (moving_mean t.pdf).2]

/-! ## Example -/

example : ∃ (s s2 : St Pdf) (a : Nat) (t u : Tgt Pdf), run (env exOpts) exPrm 0
      [.correct (sensor exOpts exSens0) exCh exOne ⟨System.exRpt 0 0, none, 0⟩] St.empty = some s ∧
    s.heap a = some t ∧ run (env exOpts) exPrm 0 [.predict (cv 1 1 0) id] s = some s2 ∧ s2.heap a = some u ∧
    t.pdf.pf.c.length = 2 ∧ mean u.pdf.pf.c 3 = mean t.pdf.pf.c 3 := by
  obtain ⟨s, a, t, h1, h2, h3, ⟨x, h4⟩, h5⟩ := exCollapsed
  have hN : 0 < exOpts.N := by show 0 < 2; norm_num
  obtain ⟨s3, k1, v, hv, _, hr⟩ := C91_kept (by show (0 : ℝ) ≤ 150; norm_num) [((1 : ℝ), (0 : ℝ))]
    (fun c h => (exW c h).p) h1 h2 ⟨x, h4⟩ h5 (by rw [h3]; show (1 : ℝ) / 20 ≤ 4 / 5; norm_num)
  have k2 : run (env exOpts) exPrm 0 [.predict (cv 1 1 0) id] s = some s3 := k1
  obtain ⟨t', ht', _, _, _, hm⟩ := C126_particles exOpts_sort hN exW h1 (ps := [.predict (cv 1 1 0) id])
    (fun c hc => by
      rw [List.mem_singleton.1 hc]
      exact ⟨_, _, rfl, fun l => List.Perm.refl _, Or.inl ⟨_, _, _, rfl⟩⟩) k2 hv
  rw [h2] at ht'
  cases ht'
  exact ⟨s, s3, a, t, v, h1, h2, k2, hv, (C124_weights exOpts_sort hN exW h1 a t h2).1, hm⟩

end Verif.Particles
