import Verif.Tracker.Again
import Verif.System.Local

/-!
# C116 for Gaussian mixtures on the earth
-/

namespace Verif.System

open Verif.Tracker
open Verif.Cluster (Cl)

/-- What holds before every scan holds along the way. -/
theorem allClear_of {k : Opts} (hk : OptsOk k) {prm : Params} {fuel : Nat} : ∀ (calls : List (Call Pdf Rpt)) (s : St Pdf),
    (∀ pre S ch scan dflt post s1, calls = pre ++ .correct S ch scan dflt :: post →
      run (env k) prm fuel pre s = some s1 →
      (∀ cls s2 rcid, prepare (env k) S scan s1 = some (cls, s2, rcid) → ∀ c ∈ cls,
        SettledIn (env k) S prm ch.wt s2.heap (initReps scan rcid dflt) c) ∧
      ∀ a p l, Joined (env k) S prm ch scan dflt s1 a p l → ¬ Tied k l) → AllClear (env k) prm fuel calls s
  | [], _, _ => trivial
  | c :: l, s, h => by
    refine ⟨?_, fun v hv => allClear_of hk l v fun pre S ch scan dflt post s1 h1 h2 => ?_⟩
    · cases c with
      | predict m ord => trivial
      | correct S ch scan dflt =>
        obtain ⟨h1, h2⟩ := h [] S ch scan dflt l s rfl rfl
        exact ⟨h1, fun a p l hj l' hp hw => congrArg (toGlobal k) (join_firm hk hp hw (h2 a p l hj) p)⟩
    · refine h (c :: pre) S ch scan dflt post s1 (by rw [h1]; rfl) ?_
      simp only [run, hv]
      exact h2

/-- **C116** A program of scans and predictions, run twice with anything different that is left to the machine (the
addresses, the schedule, the order of the loops, the choice among equals) and with the reports of each scan listed in
another order.  The sensors do not look at addresses.  If before every scan of the first run the costs settle which hypotheses count, and no different
components of the same weight are joined, then the second run ends as well, with the same targets: existence
probability, mixture and box, and last action; and the queries give the same numbers. -/
theorem C116_tracker {k : Opts} (hk : OptsOk k) {prm : Params} {calls calls' : List (Call Pdf Rpt)}
    (hagain : List.Forall₂ Again calls calls') (hc : ∀ c ∈ calls, SysCall k prm c ∧ CallCosts c ∧ Plain c)
    (hc' : ∀ c ∈ calls', SysCall k prm c ∧ CallCosts c) {fuel : Nat} {s : St Pdf}
    (e : run (env k) prm fuel calls St.empty = some s)
    (hclear : ∀ pre S ch scan dflt post s1, calls = pre ++ .correct S ch scan dflt :: post →
      run (env k) prm fuel pre St.empty = some s1 →
      (∀ cls s2 rcid, prepare (env k) S scan s1 = some (cls, s2, rcid) → ∀ c ∈ cls,
        SettledIn (env k) S prm ch.wt s2.heap (initReps scan rcid dflt) c) ∧
      ∀ a p l, Joined (env k) S prm ch scan dflt s1 a p l → ¬ Tied k l) :
    ∃ F s', (∀ fuel', F ≤ fuel' → run (env k) prm fuel' calls' St.empty = some s') ∧
      (s.targets.map fun a => (s.heap a).map fun t => (t.r, t.pdf, t.la)).Perm
        (s'.targets.map fun a => (s'.heap a).map fun t => (t.r, t.pdf, t.la)) ∧
      enofTargets s' = enofTargets s ∧ (∀ rlim, nofTargets s' rlim = nofTargets s rlim) ∧
      ∀ b : RTree.Rect, b.Valid → enofTargetsIn s' b = enofTargetsIn s b ∧
        ∀ rlim, nofTargetsIn s' b rlim = nofTargetsIn s b rlim :=
  C116_again (env_box k) center_perm prm fuel calls calls' hagain
    (fun c h => ⟨sysCall_ok (hc c h).1, (hc c h).2⟩)
    (fun c h => ⟨sysCall_ok (hc' c h).1, (hc' c h).2⟩) s e (allClear_of hk calls St.empty hclear)

/-! ## A concrete case -/

/-- Two reports here. -/
noncomputable def exTwoHere : List (Rep Rpt) :=
  [⟨exAt 0 1 one_pos, none, 0⟩, ⟨exAt ![1, 2] 1 one_pos, none, 0⟩]

/-- Two reports there. -/
noncomputable def exTwoThere : List (Rep Rpt) :=
  [⟨exAt 0 (1 / 2) (by norm_num), none, 0⟩, ⟨exAt ![3, 4] (1 / 2) (by norm_num), none, 0⟩]

/-- A scan here, a scan there; the machine as it likes. -/
noncomputable def exBoth (ch : Choices) (f : List (Rep Rpt) → List (Rep Rpt)) : List (Call Pdf Rpt) :=
  [.correct (sensor exOpts4 exEye) ch (f exTwoHere) ⟨exRpt 0 0, none, 0⟩,
   .correct (sensor exOpts4 exThere) ch (f exTwoThere) ⟨exRpt 0 0, none, 0⟩]

theorem exBoth_ok {ch : Choices} (h1 : ChOk ch) (h2 : ∀ r c, Murty.PickOk (ch.pick r c)) (h3 : ∀ q, 0 ≤ ch.wt q)
    {f : List (Rep Rpt) → List (Rep Rpt)} (h4 : ∀ l, (f l).length = l.length) :
    ∀ c ∈ exBoth ch f, SysCall exOpts4 exPrmAll c ∧ CallCosts c ∧ Plain c := by
  intro c hc
  simp only [exBoth, List.mem_cons, List.not_mem_nil, or_false] at hc
  rcases hc with rfl | rfl
  · refine ⟨⟨⟨_, exEye_ok, rfl⟩, h1, h2, h3, ?_⟩, ⟨exHere4_costs.1, h2⟩, fun _ _ => ⟨rfl, rfl, rfl, rfl⟩, h3⟩
    rw [h4]
    show (3 * ((2 : ℕ) : ℝ) + 4) / 100000000 < 1 / 20
    norm_num
  · refine ⟨⟨⟨_, exThere_ok, rfl⟩, h1, h2, h3, ?_⟩, ⟨exThere4_costs.1, h2⟩, fun _ _ => ⟨rfl, rfl, rfl, rfl⟩, h3⟩
    rw [h4]
    show (3 * ((2 : ℕ) : ℝ) + 4) / 100000000 < 1 / 20
    norm_num

/-- Two targets are started here and two there; the addresses, the order of births and of the reports differ. -/
example : ∃ (F : Nat) (s s' : St Pdf),
    run (env exOpts4) exPrmAll F (exBoth exCh id) St.empty = some s ∧
    run (env exOpts4) exPrmAll F (exBoth exCh2 List.reverse) St.empty = some s' ∧
    (s.targets.map fun a => (s.heap a).map fun t => (t.r, t.pdf, t.la)).Perm
      (s'.targets.map fun a => (s'.heap a).map fun t => (t.r, t.pdf, t.la)) ∧ s'.targets.length = 4 := by
  have hw : ∀ q, 0 ≤ exCh.wt q := fun q => (Hyp.ew_pos q).le
  have k1 := exBoth_ok exCh_ok exCh_pick hw (f := id) fun _ => rfl
  have k2 := exBoth_ok exCh2_ok exCh_pick hw (f := List.reverse) fun _ => List.length_reverse
  obtain ⟨F, s, hF⟩ := C26_defined (env_box exOpts4) exPrmAll (exBoth exCh id) (fun c h => sysCall_ok (k1 c h).1)
    (fun c h => (k1 c h).2.1) (by simp [exBoth, Call.reports, exTwoHere, exTwoThere])
  have hrun := hF F (le_refl _)
  have hempty : ∀ {S : Sensor Pdf Rpt} {scan : List (Rep Rpt)} (a : Nat), ¬ Gated (env exOpts4) S scan St.empty a := by
    rintro S scan a ⟨t, ht, _⟩
    simp [St.empty] at ht
  obtain ⟨s1, reps, new, w1, w2, _, w3, w4, _⟩ := C58_unreached_scan (env_box exOpts4) exPrmAll F [] (by simp) St.empty rfl
    (sensor exOpts4 exEye) exCh exTwoHere ⟨exRpt 0 0, none, 0⟩ (sysCall_ok (k1 _ List.mem_cons_self).1) hempty
  have hr1 : run (env exOpts4) exPrmAll F [.correct (sensor exOpts4 exEye) exCh exTwoHere ⟨exRpt 0 0, none, 0⟩] St.empty =
      some s1 := by simp only [run, step, w1, Option.map_some]
  have hok1 : ∀ c ∈ ([.correct (sensor exOpts4 exEye) exCh exTwoHere ⟨exRpt 0 0, none, 0⟩] : List (Call Pdf Rpt)),
      CallOk (env exOpts4) c := by
    intro c hc
    rw [List.mem_singleton] at hc
    subst hc
    exact sysCall_ok (k1 _ List.mem_cons_self).1
  have hb : ∀ a t, s1.heap a = some t → t.pdf.box = exBox := run_tgt (T := fun t : Tgt Pdf => t.pdf.box = exBox)
    (env_box exOpts4) (fun t u _ h2 h => by rw [h2]; exact h) hok1 (by
      intro c hc
      rw [List.mem_singleton] at hc
      subst hc
      exact exOpts4_box exBox exBox_ne exEye exEye_init _ _ _ _) hr1
  have hfar : ∀ a, ¬ Gated (env exOpts4) (sensor exOpts4 exThere) exTwoThere s1 a := by
    rintro a ⟨t, ht, ⟨h, _⟩ | ⟨z, hz, h⟩⟩
    · have h : exThere.fovBox.Touch t.pdf.box.1 := h
      rw [hb a t ht] at h
      exact exFar4.2.2.1 h
    · have hk : z.val.1.kappa = 1 / 2 := by
        simp only [exTwoThere, List.mem_cons, List.not_mem_nil, or_false] at hz
        rcases hz with rfl | rfl <;> rfl
      have h : (if z.val.1.kappa = 1 / 2 then exBoxAt 500 500 else exBox).1.Touch t.pdf.box.1 := h
      rw [if_pos hk, hb a t ht] at h
      exact exFar4.1 h
  obtain ⟨s2, reps2, new2, v1, v2, _, v3, v4, _⟩ := C58_unreached_scan (env_box exOpts4) exPrmAll F _ hok1 s1 hr1
    (sensor exOpts4 exThere) exCh exTwoThere ⟨exRpt 0 0, none, 0⟩
    (sysCall_ok (k1 _ (List.mem_cons_of_mem _ List.mem_cons_self)).1) hfar
  have hs2 : s2 = s := by
    have h := hrun
    simp only [exBoth, run, step, id, w1, v1, Option.map_some] at h
    exact Option.some.inj h
  subst hs2
  have hl1 : new.length = 2 := w4 (by show (1 : ℝ) / 20 ≤ (2 : ℕ); norm_num)
    (by show (1 : ℝ) / 20 ≤ 1 / (2 : ℕ); norm_num)
  have hl2 : new2.length = 2 := v4 (by show (1 : ℝ) / 20 ≤ (2 : ℕ); norm_num)
    (by show (1 : ℝ) / 20 ≤ 1 / (2 : ℕ); norm_num)
  have hlen : s2.targets.length = 4 := by
    rw [v2, w2]
    simp [St.empty, hl1, hl2]
  have hnone : ∀ {S : Sensor Pdf Rpt} {scan : List (Rep Rpt)} {dflt : Rep Rpt} {u : St Pdf}, Inv (env exOpts4) u →
      CallOk (env exOpts4) (.correct S exCh scan dflt) → (∀ a, ¬ Gated (env exOpts4) S scan u a) →
      ∀ a p l, ¬ Joined (env exOpts4) S exPrmAll exCh scan dflt u a p l := by
    rintro S scan dflt u hu hcall hg a p l ⟨cls, s1, rcid, c, k, hp, hcm, hk, _⟩
    obtain ⟨_, _, _, q1, _, _, _, _, _, q7, _⟩ := prepare_ok (env_box exOpts4) hcall.1 hcall.2.2 hu.ok
    rw [hp, Option.some.injEq, Prod.mk.injEq, Prod.mk.injEq] at q1
    obtain ⟨rfl, rfl, rfl⟩ := q1
    exact hg a ((q7 a).1 ⟨c, hcm, List.mem_of_getElem? hk⟩)
  have hnum : (((2 : ℕ) : ℝ) + 60) ^ 30 ≤ exPrmAll.nhypMax := by
    show (((2 : ℕ) : ℝ) + 60) ^ 30 ≤ 63 ^ 30
    norm_num
  obtain ⟨F', s', g1, g2, _⟩ := C116_tracker exOpts4_ok (calls := exBoth exCh id) (calls' := exBoth exCh2 List.reverse)
    (.cons (Again.correct _ _ _ _ _ _ _ rfl (List.reverse_perm _).symm)
      (.cons (Again.correct _ _ _ _ _ _ _ rfl (List.reverse_perm _).symm) .nil)) k1 (fun c h => ⟨(k2 c h).1, (k2 c h).2.1⟩) hrun (by
    intro pre S ch scan dflt post u h1 h2
    match pre, h1 with
    | [], h1 =>
      simp only [exBoth, List.nil_append, List.cons.injEq, Call.correct.injEq, id] at h1
      obtain ⟨⟨rfl, rfl, rfl, rfl⟩, rfl⟩ := h1
      obtain rfl := Option.some.inj h2
      have hcall := sysCall_ok (k1 _ List.mem_cons_self).1
      exact ⟨unlimited_settled (env_box exOpts4) (Inv.empty _) exHere4_costs.1 hw exCh_pick hcall w1 (le_refl _) hnum,
        fun a p l h => absurd h (hnone (Inv.empty _) hcall hempty a p l)⟩
    | [x], h1 =>
      simp only [exBoth, List.cons_append, List.nil_append, List.cons.injEq, Call.correct.injEq, id] at h1
      obtain ⟨rfl, ⟨rfl, rfl, rfl, rfl⟩, rfl⟩ := h1
      rw [hr1] at h2
      obtain rfl := Option.some.inj h2
      have hcall := sysCall_ok (k1 _ (List.mem_cons_of_mem _ List.mem_cons_self)).1
      have hu := run_inv (env_box exOpts4) (Inv.empty _) hok1 hr1
      exact ⟨unlimited_settled (env_box exOpts4) hu exThere4_costs.1 hw exCh_pick hcall v1 (le_refl _) hnum,
        fun a p l h => absurd h (hnone hu hcall hfar a p l)⟩
    | x :: y :: l, h1 => simp [exBoth] at h1)
  refine ⟨max F F', s2, s', hF _ (le_max_left _ _), g1 _ (le_max_right _ _), g2, ?_⟩
  have := g2.length_eq
  rw [List.length_map, List.length_map] at this
  rw [← this, hlen]

end Verif.System
