import Verif.Tracker.Local
import Verif.System.Order

/-!
# C108 for Gaussian mixtures on the earth
-/

namespace Verif.System

open Verif.Tracker
open Verif.Cluster (Cl)

/-- **C108** Two scans that do not reach each other's targets, in either order: the same unexplained
probabilities, the same targets with the same existence probabilities, and the same densities except where a
density was joined from terms with different components of the same weight. -/
theorem C108_tracker {k : Opts} (hk : OptsOk k) {prm : Params} {calls : List (Call Pdf Rpt)}
    (hc : ∀ c ∈ calls, SysCall k prm c) {fuel : Nat} {s : St Pdf} (e : run (env k) prm fuel calls St.empty = some s)
    {sn₁ sn₂ : PSens} (hcost₁ : CostsOk (sensor k sn₁)) (hcost₂ : CostsOk (sensor k sn₂)) {ch₁ ch₂ ch₁' ch₂' : Choices}
    (hwt₁ : ch₁'.wt = ch₁.wt) (hwt₂ : ch₂'.wt = ch₂.wt) {scan₁ scan₂ : List (Rep Rpt)} {dflt : Rep Rpt}
    (hs₁ : SysCall k prm (.correct (sensor k sn₁) ch₁ scan₁ dflt))
    (hs₂ : SysCall k prm (.correct (sensor k sn₂) ch₂ scan₂ dflt))
    (hs₁' : SysCall k prm (.correct (sensor k sn₁) ch₁' scan₁ dflt))
    (hs₂' : SysCall k prm (.correct (sensor k sn₂) ch₂' scan₂ dflt))
    {s₁ s₂ s₁₂ s₂₁ : St Pdf} {reps₁ reps₂ reps₁' reps₂' : Nat → Rep Rpt}
    (e₁ : correct (env k) (sensor k sn₁) prm ch₁ fuel scan₁ dflt s = some (s₁, reps₁))
    (e₁₂ : correct (env k) (sensor k sn₂) prm ch₂' fuel scan₂ dflt s₁ = some (s₁₂, reps₂'))
    (e₂ : correct (env k) (sensor k sn₂) prm ch₂ fuel scan₂ dflt s = some (s₂, reps₂))
    (e₂₁ : correct (env k) (sensor k sn₁) prm ch₁' fuel scan₁ dflt s₂ = some (s₂₁, reps₁'))
    (h0 : ∀ a, Gated (env k) (sensor k sn₁) scan₁ s a → ¬ Gated (env k) (sensor k sn₂) scan₂ s a)
    (h1 : ∀ a, Gated (env k) (sensor k sn₂) scan₂ s₁ a → a ∈ s.targets ∧ ¬ Gated (env k) (sensor k sn₁) scan₁ s a)
    (h2 : ∀ a, Gated (env k) (sensor k sn₁) scan₁ s₂ a → a ∈ s.targets ∧ ¬ Gated (env k) (sensor k sn₂) scan₂ s a)
    (hset₁ : ∀ cls s1 rcid, prepare (env k) (sensor k sn₁) scan₁ s = some (cls, s1, rcid) → ∀ c ∈ cls,
      SettledIn (env k) (sensor k sn₁) prm ch₁.wt s1.heap (initReps scan₁ rcid dflt) c)
    (hset₂ : ∀ cls s1 rcid, prepare (env k) (sensor k sn₂) scan₂ s = some (cls, s1, rcid) → ∀ c ∈ cls,
      SettledIn (env k) (sensor k sn₂) prm ch₂.wt s1.heap (initReps scan₂ rcid dflt) c) :
    (∀ j < scan₁.length, (reps₁' j).rB = (reps₁ j).rB) ∧ (∀ j < scan₂.length, (reps₂' j).rB = (reps₂ j).rB) ∧
    (∀ a t, s.heap a = some t → Gated (env k) (sensor k sn₁) scan₁ s a ∨ Gated (env k) (sensor k sn₂) scan₂ s a →
      ∃ u u', u.id = t.id ∧ u'.id = t.id ∧ u'.r = u.r ∧ (u'.pdf = u.pdf ∨ ∃ p l,
        (Joined (env k) (sensor k sn₁) prm ch₁ scan₁ dflt s a p l ∨
          Joined (env k) (sensor k sn₂) prm ch₂ scan₂ dflt s a p l) ∧ Tied k l) ∧
        Ends (env k) prm s₁₂ a u ∧ Ends (env k) prm s₂₁ a u') ∧
    (∀ a t, s.heap a = some t → ¬ Gated (env k) (sensor k sn₁) scan₁ s a → ¬ Gated (env k) (sensor k sn₂) scan₂ s a →
      s₁₂.heap a = some t ∧ s₂₁.heap a = some t) ∧
    ∃ old new old' new', s₁₂.targets = old ++ new ∧ s₂₁.targets = old' ++ new' ∧ old.Sublist s.targets ∧
      old'.Sublist s.targets ∧ Stay s s₁₂ old ∧ Stay s s₂₁ old' ∧
      (new.map fun b => (s₁₂.heap b).map fun w => (w.r, w.pdf)).Perm
        (new'.map fun b => (s₂₁.heap b).map fun w => (w.r, w.pdf)) := by
  obtain ⟨A, B, C, D, F⟩ := C108_commute (env_box k) center_perm prm fuel calls (fun c h => sysCall_ok (hc c h)) s e
    (sensor k sn₁) (sensor k sn₂) hcost₁ hcost₂ ch₁ ch₂ ch₁' ch₂' hwt₁ hwt₂ hs₁.2.2.2.1 hs₂.2.2.2.1 hs₁.2.2.1 hs₂.2.2.1
    hs₁'.2.2.1 hs₂'.2.2.1 scan₁ scan₂ dflt (sysCall_ok hs₁) (sysCall_ok hs₂) (sysCall_ok hs₁') (sysCall_ok hs₂') s₁ s₂ s₁₂
    s₂₁ reps₁ reps₂ reps₁' reps₂' e₁ e₁₂ e₂ e₂₁ h0 h1 h2 hset₁ hset₂
  refine ⟨fun j hj => (A j hj).1, fun j hj => (B j hj).1, fun a t ht hg => ?_, D, F⟩
  obtain ⟨u, u', g1, g2, g3, g4⟩ := C a t ht hg
  obtain ⟨k1, k2, _, k4⟩ := alike_pdf hk g1
  refine ⟨u, u', g2, k1.trans g2, k2, k4.imp_right ?_, g3, g4⟩
  rintro ⟨p, l, ⟨l₀, m1, m2⟩, m3⟩
  exact ⟨p, l₀, m2, m3.perm m1.symm⟩

/-! ## A concrete case -/

theorem exBox_ne : exBox ≠ Box.zero := by
  intro h
  have := congrArg (fun b : Box => b.1.maxx) h
  simp [exBox, Box.zero] at this

open Classical in
/-- `exOpts3`, where a target keeps its box, and those of a sensor with variance 2 of the velocity start far away. -/
noncomputable def exOpts4 : Opts :=
  { exOpts3 with mkBox := fun c b _ => if b = Box.zero then
      (if ∃ g ∈ c, g.x.2 2 2 = 2 then exBoxAt 500 500 else exBox) else b }

theorem exOpts4_ok : OptsOk exOpts4 :=
  ⟨exOpts_ok.srt, exOpts_ok.mx, exOpts_ok.lim, exOpts_ok.prod⟩

/-- A sensor that looks at that place. -/
noncomputable def exThere : PSens := { exEye with fovBox := ⟨400, 400, 600, 600⟩, pv := (2 : ℝ) • 1 }

theorem exThere_ok : SensOk exThere := by
  obtain ⟨_, h2, h3, _, h5, h6⟩ := exEye_ok
  refine ⟨⟨?_, ?_⟩, h2, h3, Matrix.PosDef.one.smul (by norm_num), h5, h6⟩
  · show (400 : ℚ) ≤ 600; norm_num
  · show (400 : ℚ) ≤ 600; norm_num

/-- The targets here. -/
noncomputable def exHere4 : Call Pdf Rpt :=
  .correct (sensor exOpts4 exEye) exCh [⟨exAt 0 1 one_pos, none, 0⟩] ⟨exRpt 0 0, none, 0⟩

/-- The targets there. -/
noncomputable def exThere4 : Call Pdf Rpt :=
  .correct (sensor exOpts4 exThere) exCh [⟨exAt 0 (1 / 2) (by norm_num), none, 0⟩] ⟨exRpt 0 0, none, 0⟩

theorem exHere4_ok : SysCall exOpts4 exPrmAll exHere4 :=
  ⟨⟨_, exEye_ok, rfl⟩, exCh_ok, exCh_pick, fun q => (Hyp.ew_pos q).le, by
    show (3 * ((1 : ℕ) : ℝ) + 4) / 100000000 < 1 / 20
    norm_num⟩

theorem exThere4_ok : SysCall exOpts4 exPrmAll exThere4 :=
  ⟨⟨_, exThere_ok, rfl⟩, exCh_ok, exCh_pick, fun q => (Hyp.ew_pos q).le, by
    show (3 * ((1 : ℕ) : ℝ) + 4) / 100000000 < 1 / 20
    norm_num⟩

theorem exHere4_costs : CallCosts exHere4 :=
  ⟨⟨(exScan3_costs []).1.det, (exScan3_costs []).1.miss, (exScan3_costs []).1.fls⟩, exCh_pick⟩

theorem exThere4_costs : CallCosts exThere4 :=
  ⟨⟨(exScan3_costs []).1.det, (exScan3_costs []).1.miss, (exScan3_costs []).1.fls⟩, exCh_pick⟩

/-- A correction changes no box. -/
theorem exOpts4_box (b : Box) (hb : b ≠ Box.zero) (sn : PSens) (hinit : ∀ z, ((sensor exOpts4 sn).init z).box = b)
    (fuel : Nat) (ch : Choices) (scan : List (Rep Rpt)) (dflt : Rep Rpt) :
    CallTgt (env exOpts4) exPrmAll fuel (fun t : Tgt Pdf => t.pdf.box = b)
      (.correct (sensor exOpts4 sn) ch scan dflt) := by
  have hj : ∀ (p : Pdf) w ps, (joinPdf exOpts4 p w ps).box = p.box := by
    intro p w ps
    unfold joinPdf
    split <;> rfl
  have hg : ∀ p : Pdf, p.box = b → (toGlobal exOpts4 p).box = b := by
    intro p h
    show (if p.box = Box.zero then _ else p.box) = b
    rw [if_neg (by rw [h]; exact hb), h]
  refine ⟨?_, fun _ _ z _ _ => hinit _⟩
  intro ts rs v hts _ hv t ht _
  rw [compute_eq rfl rfl rfl] at hv
  split at hv
  · obtain rfl := Option.some.inj hv
    simp at ht
  · split at hv
    · cases hv
    · split at hv
      · obtain rfl := Option.some.inj hv
        obtain ⟨x, hx, rfl⟩ := List.mem_map.1 ht
        refine hg _ ?_
        obtain ⟨y, hy, rfl⟩ := List.mem_map.1 hx
        exact hts y hy
      · obtain rfl := Option.some.inj hv
        obtain ⟨i, rfl⟩ := (List.mem_ofFn' _ _).1 ht
        refine hg _ ?_
        unfold corrected
        refine (apply_ite Pdf.box _ _ _).trans ((ite_congr rfl (fun _ => hj _ _ _) fun _ => rfl).trans ((ite_self _).trans ?_))
        obtain ⟨y, hy, h⟩ := List.mem_map.1 (List.get_mem (ts.map fun t => (t.1, forth (env exOpts4)
          ((env exOpts4).center (rs.map (env exOpts4).rpos ++ ts.map fun t => (env exOpts4).pos t.2.pdf)) t.2)) i)
        rw [← h]
        exact hts y hy

open Classical in
theorem init4 (sn : PSens) (z : Rpt) : ∃ c : List Cmp, (∃ g, c = [g] ∧ g.x.2 2 2 = sn.pv 0 0) ∧
    ((sensor exOpts4 sn).init z).box = if Box.zero = Box.zero then
      (if ∃ g ∈ c, g.x.2 2 2 = 2 then exBoxAt 500 500 else exBox) else Box.zero :=
  ⟨_, ⟨_, rfl, rfl⟩, rfl⟩

theorem exEye_init (z : Rpt) : ((sensor exOpts4 exEye).init z).box = exBox := by
  obtain ⟨c, ⟨g, rfl, hg⟩, h⟩ := init4 exEye z
  rw [h, if_pos rfl, if_neg]
  rintro ⟨g', hg', h'⟩
  obtain rfl := List.mem_singleton.1 hg'
  rw [hg] at h'
  have : (1 : ℝ) = 2 := by simpa [exEye, exSens] using h'
  norm_num at this

theorem exThere_init (z : Rpt) : ((sensor exOpts4 exThere).init z).box = exBoxAt 500 500 := by
  obtain ⟨c, ⟨g, rfl, hg⟩, h⟩ := init4 exThere z
  rw [h, if_pos rfl, if_pos]
  refine ⟨g, List.mem_singleton.2 rfl, ?_⟩
  rw [hg]
  simp [exThere]

/-- The boxes here and there do not touch. -/
theorem exFar4 : ¬ (exBoxAt 500 500).1.Touch exBox.1 ∧ ¬ exBox.1.Touch (exBoxAt 500 500).1 ∧
    ¬ exThere.fovBox.Touch exBox.1 ∧ ¬ exEye.fovBox.Touch (exBoxAt 500 500).1 := by
  have hcl : exClamp 500 = 500 := by
    unfold exClamp
    norm_num
  refine ⟨?_, ?_, ?_, ?_⟩ <;> rintro ⟨x, y, h1, h2⟩
  · have h3 : exClamp 500 - 1 ≤ x := h1.1
    have h4 : x ≤ 1 := h2.2.1
    rw [hcl] at h3
    linarith
  · have h3 : exClamp 500 - 1 ≤ x := h2.1
    have h4 : x ≤ 1 := h1.2.1
    rw [hcl] at h3
    linarith
  · have h3 : 400 ≤ x := h1.1
    have h4 : x ≤ 1 := h2.2.1
    linarith
  · have h3 : exClamp 500 - 1 ≤ x := h2.1
    have h4 : x ≤ 90 := h1.2.1
    rw [hcl] at h3
    linarith

/-- A target here; then a scan here and one there, in either order. -/
example : ∃ (F : Nat) (s s₁ s₂ s₁₂ s₂₁ : St Pdf) (a : Nat) (reps₁ reps₂ reps₁' reps₂' : Nat → Rep Rpt),
    run (env exOpts4) exPrmAll F [exHere4] St.empty = some s ∧ 
    Gated (env exOpts4) (sensor exOpts4 exEye) [⟨exAt 0 1 one_pos, none, 0⟩] s a ∧
    step (env exOpts4) exPrmAll F s exHere4 = some s₁ ∧ step (env exOpts4) exPrmAll F s₁ exThere4 = some s₁₂ ∧
    step (env exOpts4) exPrmAll F s exThere4 = some s₂ ∧ step (env exOpts4) exPrmAll F s₂ exHere4 = some s₂₁ ∧
    (∃ u u', u'.r = u.r ∧ (u'.pdf = u.pdf ∨ ∃ p l, (Joined (env exOpts4) (sensor exOpts4 exEye) exPrmAll exCh
        [⟨exAt 0 1 one_pos, none, 0⟩] ⟨exRpt 0 0, none, 0⟩ s a p l ∨ Joined (env exOpts4) (sensor exOpts4 exThere) exPrmAll exCh
        [⟨exAt 0 (1 / 2) (by norm_num), none, 0⟩] ⟨exRpt 0 0, none, 0⟩ s a p l) ∧ Tied exOpts4 l) ∧
        Ends (env exOpts4) exPrmAll s₁₂ a u ∧ Ends (env exOpts4) exPrmAll s₂₁ a u') := by
  have hokc : ∀ c, c = exHere4 ∨ c = exThere4 → SysCall exOpts4 exPrmAll c ∧ CallCosts c := by
    rintro c (rfl | rfl)
    · exact ⟨exHere4_ok, exHere4_costs⟩
    · exact ⟨exThere4_ok, exThere4_costs⟩
  have hdef : ∀ x y, (x = exHere4 ∨ x = exThere4) → (y = exHere4 ∨ y = exThere4) →
      ∃ F s, ∀ fuel, F ≤ fuel → run (env exOpts4) exPrmAll fuel [exHere4, x, y] St.empty = some s := by
    intro x y hx hy
    have hm : ∀ c ∈ [exHere4, x, y], c = exHere4 ∨ c = exThere4 := by
      intro c hc
      simp only [List.mem_cons, List.not_mem_nil, or_false] at hc
      rcases hc with rfl | rfl | rfl
      · exact Or.inl rfl
      · exact hx
      · exact hy
    refine C26_defined (env_box _) exPrmAll _ (fun c hc => sysCall_ok (hokc c (hm c hc)).1)
      (fun c hc => (hokc c (hm c hc)).2) ?_
    rcases hx with rfl | rfl <;> rcases hy with rfl | rfl <;> simp [exHere4, exThere4, Call.reports]
  have hsplit : ∀ {F : Nat} {x y : Call Pdf Rpt} {s' : St Pdf}, run (env exOpts4) exPrmAll F [exHere4, x, y] St.empty = some s' →
      ∃ s t, run (env exOpts4) exPrmAll F [exHere4] St.empty = some s ∧ step (env exOpts4) exPrmAll F s x = some t ∧
        step (env exOpts4) exPrmAll F t y = some s' := by
    intro F x y s' h
    simp only [run] at h ⊢
    cases h1 : step (env exOpts4) exPrmAll F St.empty exHere4 with
    | none => simp [h1] at h
    | some u =>
      simp only [h1] at h
      cases h2 : step (env exOpts4) exPrmAll F u x with
      | none => simp [h2] at h
      | some v =>
        simp only [h2] at h
        cases h3 : step (env exOpts4) exPrmAll F v y with
        | none => simp [h3] at h
        | some w =>
          simp only [h3] at h
          exact ⟨u, v, rfl, h2, h3.trans h⟩
  obtain ⟨F1, x1, g1⟩ := hdef exHere4 exThere4 (Or.inl rfl) (Or.inr rfl)
  obtain ⟨F2, x2, g2⟩ := hdef exThere4 exHere4 (Or.inr rfl) (Or.inl rfl)
  obtain ⟨s, s₁, r0, f₁, f₁₂⟩ := hsplit (g1 (max F1 F2) (le_max_left _ _))
  obtain ⟨s0, s₂, r1, f₂, f₂₁⟩ := hsplit (g2 (max F1 F2) (le_max_right _ _))
  rw [r0] at r1
  obtain rfl := Option.some.inj r1
  have hcor : ∀ {sn : PSens} {z : Rep Rpt} {dflt : Rep Rpt} {u v : St Pdf}, step (env exOpts4) exPrmAll (max F1 F2) u
      (.correct (sensor exOpts4 sn) exCh [z] dflt) = some v → ∃ reps,
      correct (env exOpts4) (sensor exOpts4 sn) exPrmAll exCh (max F1 F2) [z] dflt u = some (v, reps) := by
    intro sn z dflt u v h
    simp only [step] at h
    cases hx : correct (env exOpts4) (sensor exOpts4 sn) exPrmAll exCh (max F1 F2) [z] dflt u with
    | none => simp [hx] at h
    | some y =>
      rw [hx, Option.map_some, Option.some.injEq] at h
      exact ⟨y.2, by rw [← h]⟩
  obtain ⟨reps₁, e₁⟩ := hcor f₁
  obtain ⟨reps₂', e₁₂⟩ := hcor f₁₂
  obtain ⟨reps₂, e₂⟩ := hcor f₂
  obtain ⟨reps₁', e₂₁⟩ := hcor f₂₁
  have hc : ∀ c ∈ [exHere4], SysCall exOpts4 exPrmAll c := by
    intro c hc
    rw [List.mem_singleton] at hc
    subst hc
    exact exHere4_ok
  have hok : ∀ c ∈ [exHere4], CallOk (env exOpts4) c := fun c h => sysCall_ok (hc c h)
  have hs := run_inv (env_box exOpts4) (Inv.empty _) hok r0
  -- the boxes
  have hT : ∀ t u : Tgt Pdf, u.r = t.r → u.pdf = t.pdf → t.pdf.box = exBox → u.pdf.box = exBox := by
    intro t u _ h2 h
    rw [h2]; exact h
  have hb : ∀ a t, s.heap a = some t → t.pdf.box = exBox := run_tgt (T := fun t : Tgt Pdf => t.pdf.box = exBox)
    (env_box exOpts4) hT hok (by
      intro c hc
      rw [List.mem_singleton] at hc
      subst hc
      exact exOpts4_box exBox exBox_ne exEye exEye_init _ _ _ _) r0
  have hb1 : ∀ a t, s₁.heap a = some t → t.pdf.box = exBox := step_tgt (T := fun t : Tgt Pdf => t.pdf.box = exBox)
    (env_box exOpts4) hT hs (sysCall_ok exHere4_ok) (exOpts4_box exBox exBox_ne exEye exEye_init _ _ _ _) hb f₁
  have hfar : ∀ {x : St Pdf}, (∀ a t, x.heap a = some t → t.pdf.box = exBox) → ∀ a,
      ¬ Gated (env exOpts4) (sensor exOpts4 exThere) [⟨exAt 0 (1 / 2) (by norm_num), none, 0⟩] x a := by
    rintro x hx a ⟨t, ht, ⟨h, _⟩ | ⟨z, hz, h⟩⟩
    · have h : exThere.fovBox.Touch t.pdf.box.1 := h
      rw [hx a t ht] at h
      exact exFar4.2.2.1 h
    · rw [List.mem_singleton] at hz
      subst hz
      have h : (if (1 / 2 : ℝ) = 1 / 2 then exBoxAt 500 500 else exBox).1.Touch t.pdf.box.1 := h
      rw [if_pos rfl, hx a t ht] at h
      exact exFar4.1 h
  have h2 : ∀ a, Gated (env exOpts4) (sensor exOpts4 exEye) [⟨exAt 0 1 one_pos, none, 0⟩] s₂ a → a ∈ s.targets ∧
      ¬ Gated (env exOpts4) (sensor exOpts4 exThere) [⟨exAt 0 (1 / 2) (by norm_num), none, 0⟩] s a := by
    rintro a ⟨t, ht, hg⟩
    refine ⟨?_, hfar hb a⟩
    obtain ⟨_, _, _, nw, d, _, n2, _⟩ := correct_origin (env_box exOpts4) (sysCall_ok exThere4_ok).1 exCh_ok
      (sysCall_ok exThere4_ok).2.2 hs e₂
    by_cases ha : a ∈ nw
    · exfalso
      obtain ⟨k, hk⟩ := List.mem_iff_getElem?.1 ha
      have hbb := d.born k a _ _ hk (List.getElem?_eq_getElem (by rw [← d.len]; exact (List.getElem?_eq_some_iff.1 hk).1))
      rw [ht] at hbb
      have hbx : t.pdf.box = exBoxAt 500 500 := by
        rw [Option.some.inj hbb]
        exact exThere_init _
      rcases hg with ⟨h, _⟩ | ⟨z, hz, h⟩
      · have h : exEye.fovBox.Touch t.pdf.box.1 := h
        rw [hbx] at h
        exact exFar4.2.2.2 h
      · rw [List.mem_singleton] at hz
        subst hz
        have h : (if (1 : ℝ) = 1 / 2 then exBoxAt 500 500 else exBox).1.Touch t.pdf.box.1 := h
        rw [if_neg (by norm_num), hbx] at h
        exact exFar4.2.1 h
    · rw [n2 a ha (hfar hb a)] at ht
      exact (hs.ok.live a).1 ⟨t, ht⟩
  have hnum : (((1 : ℕ) : ℝ) + 60) ^ 30 ≤ exPrmAll.nhypMax := by
    show (((1 : ℕ) : ℝ) + 60) ^ 30 ≤ 63 ^ 30
    norm_num
  have hset : ∀ {sn : PSens} {z : Rep Rpt} {dflt : Rep Rpt} {v : St Pdf} {reps : Nat → Rep Rpt},
      CostsOk (sensor exOpts4 sn) → CallOk (env exOpts4) (.correct (sensor exOpts4 sn) exCh [z] dflt) →
      correct (env exOpts4) (sensor exOpts4 sn) exPrmAll exCh (max F1 F2) [z] dflt s = some (v, reps) →
      ∀ cls s1 rcid, prepare (env exOpts4) (sensor exOpts4 sn) [z] s = some (cls, s1, rcid) → ∀ c ∈ cls,
      SettledIn (env exOpts4) (sensor exOpts4 sn) exPrmAll exCh.wt s1.heap (initReps [z] rcid dflt) c := by
    intro sn z dflt v reps k1 k2 k3
    exact unlimited_settled (env_box exOpts4) hs k1 (fun q => (Hyp.ew_pos q).le) exCh_pick k2 k3 (le_refl _) hnum
  obtain ⟨a, t, ht⟩ : ∃ a t, s.heap a = some t := by
    obtain ⟨s0, reps, new, w1, w2, _, w3, w4, _⟩ := C58_unreached_scan (env_box exOpts4) exPrmAll (max F1 F2) []
      (by simp) St.empty rfl (sensor exOpts4 exEye) exCh [⟨exAt 0 1 one_pos, none, 0⟩] ⟨exRpt 0 0, none, 0⟩
      (sysCall_ok exHere4_ok) (by rintro a ⟨t, ht, _⟩; simp [St.empty] at ht)
    have hl : new.length = 1 := w4 (by show (1 : ℝ) / 20 ≤ (1 : ℕ); norm_num)
      (by show (1 : ℝ) / 20 ≤ 1 / (1 : ℕ); norm_num)
    obtain ⟨a, rfl⟩ := List.length_eq_one_iff.1 hl
    obtain ⟨t, ht, _⟩ := w3 a (by simp)
    have : s0 = s := by
      simp only [exHere4, run, step, w1, Option.map_some] at r0
      exact Option.some.inj r0
    subst this
    exact ⟨a, t, ht⟩
  have hga : Gated (env exOpts4) (sensor exOpts4 exEye) [⟨exAt 0 1 one_pos, none, 0⟩] s a := by
    refine ⟨t, ht, Or.inr ⟨_, List.mem_singleton.2 rfl, ?_⟩⟩
    show (if (1 : ℝ) = 1 / 2 then exBoxAt 500 500 else exBox).1.Touch t.pdf.box.1
    rw [if_neg (by norm_num), hb a t ht]
    exact ⟨0, 0, by constructor <;> norm_num [exBox], by constructor <;> norm_num [exBox]⟩
  obtain ⟨_, _, hC, _⟩ := C108_tracker exOpts4_ok hc r0 exHere4_costs.1 exThere4_costs.1 rfl rfl exHere4_ok exThere4_ok
    exHere4_ok exThere4_ok e₁ e₁₂ e₂ e₂₁ (fun a _ => hfar hb a) (fun a h => absurd h (hfar hb1 a)) h2
    (hset exHere4_costs.1 (sysCall_ok exHere4_ok) e₁) (hset exThere4_costs.1 (sysCall_ok exThere4_ok) e₂)
  obtain ⟨u, u', _, _, q1, q2, q3, q4⟩ := hC a t ht (Or.inl hga)
  exact ⟨_, s, s₁, s₂, x1, x2, a, reps₁, reps₂, reps₁', reps₂', r0, hga, f₁, f₁₂, f₂, f₂₁, u, u', q1, q2, q3, q4⟩

end Verif.System
