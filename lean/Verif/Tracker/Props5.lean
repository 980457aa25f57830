import Verif.Tracker.Props4

/-! # Properties of the tracker: no viable target is lost (C28) -/

namespace Verif.Tracker

open Verif.RTree (Rect WF items)
open Verif.Cluster (Cl)
open Verif.Hyp Verif.Lap Verif.Murty

variable {P R O : Type}

/-- **C28, fate** What becomes of a target that the scan reaches.  It is the `k`-th target of one
cluster, which computes a new value `u` for it.  If `u` has `r ≥ r_lim` and a position covariance of
norm at most `cov_lim`, the target is alive and listed, with the value `u`.  Otherwise it is gone: its
address is free, or a target born in this call has got it. -/
theorem C28_correct_fate {E : Env P R O} (hbox : BoxOk E) (prm : Params) (fuel : Nat)
    (calls : List (Call P R)) (hc : ∀ d ∈ calls, CallOk E d) (s : St P)
    (e : run E prm fuel calls St.empty = some s) (S : Sensor P R) (ch : Choices)
    (scan : List (Rep R)) (dflt : Rep R) (hok : CallOk E (.correct S ch scan dflt)) (s' : St P)
    (reps : Nat → Rep R) (e' : correct E S prm ch fuel scan dflt s = some (s', reps)) (a : Nat)
    (t : Tgt P) (ht : s.heap a = some t) (hg : Gated E S scan s a) :
    ∃ cls s1 rcid, prepare E S scan s = some (cls, s1, rcid) ∧
      ∃ (c : Cl) (v : Comp P R) (k : Nat) (u : Tgt P), c ∈ cls ∧ c.targets[k]? = some a ∧
        compOf E S prm ch.pick fuel ch.wt s1.heap (initReps scan rcid dflt) c = some v ∧
        v.ts[k]? = some u ∧ u.id = t.id ∧
        (prm.rlim ≤ u.r → E.covNorm u.pdf ≤ prm.covlim → s'.heap a = some u ∧ a ∈ s'.targets) ∧
        (u.r < prm.rlim ∨ prm.covlim < E.covNorm u.pdf →
          ∀ w, s'.heap a = some w → w.la = 'i' ∧ ∃ j < scan.length, w.pdf = S.init (reps j).val) := by
  have hs := run_inv hbox (Inv.empty E) hc e
  obtain ⟨hf, hch, hz⟩ := hok
  obtain ⟨cls, s1, rcid, new, h3, hnew, _, _⟩ := correct_origin hbox hf hch hz hs e'
  obtain ⟨cls', s1', rcid', p1, p2, p3, p4, p5, p6, p7, p8, p9, p10⟩ := prepare_ok hbox hf hz hs.ok
  rw [h3.prep, Option.some.injEq, Prod.mk.injEq, Prod.mk.injEq] at p1
  obtain ⟨rfl, rfl, rfl⟩ := p1
  have hany : (cls.any fun c => c.targets.contains a) = true := by
    obtain ⟨c, hc, hac⟩ := (p7 a).2 hg
    rw [List.any_eq_true]
    exact ⟨c, hc, by simpa using hac⟩
  obtain ⟨c, hcm, hac⟩ := (p7 a).2 hg
  obtain ⟨i, hi⟩ := List.mem_iff_getElem?.1 hcm
  obtain ⟨v, hcv⟩ := h3.comps c hcm
  obtain ⟨l1, _, _, l4⟩ := compOf_length hcv
  obtain ⟨k, u, k1, k2, k3⟩ := writeAll_mem (h := s1.heap)
    ((List.nodup_flatMap.1 p2.tnd).1 c hcm) l1 hac
  have hid : u.id = t.id := by
    obtain ⟨a', x, q1, q2, q3, _⟩ := l4 k u k2
    rw [k1] at q1
    injection q1 with q1
    subst q1
    obtain ⟨t0, r1, r2, _⟩ := p10 a x q2
    rw [ht] at r1
    obtain rfl := Option.some.inj r1
    exact q3.trans r2
  have hfin : finalHeap E S prm ch.pick fuel ch.wt s1.heap (initReps scan rcid dflt) cls a =
      (some u).filter (viable E prm) := by
    rw [finalHeap, if_pos hany]
    unfold midHeap
    rw [(find_targets p2.tnd hi hac).1]
    simp only [hcv]
    rw [k3]
  refine ⟨cls, s1, rcid, h3.prep, c, v, k, u, hcm, k1, hcv, k2, hid, ?_, ?_⟩
  · intro hr hcov
    have hv : viable E prm u = true := by
      unfold viable
      rw [if_neg (not_lt.2 hr), if_neg (not_lt.2 hcov)]
    rw [Option.filter_some, if_pos hv] at hfin
    have hna : a ∉ new := by
      intro ha
      rw [h3.fresh a ha] at hfin
      cases hfin
    refine ⟨by rw [h3.old a hna, hfin], ?_⟩
    rw [h3.targets, List.mem_append, List.mem_filter]
    exact Or.inl ⟨(hs.ok.live a).1 ⟨t, ht⟩, by rw [hfin]; rfl⟩
  · intro hbad w hw
    have hv : ¬ viable E prm u = true := by
      unfold viable
      rcases hbad with h | h
      · rw [if_pos h]; simp
      · by_cases h6 : u.r < prm.rlim
        · rw [if_pos h6]; simp
        · rw [if_neg h6, if_pos h]; simp
    rw [Option.filter_some, if_neg hv] at hfin
    by_cases hna : a ∈ new
    · obtain ⟨m, hm⟩ := List.mem_iff_getElem?.1 hna
      obtain ⟨j, x, hjx, hh⟩ := h3.new_born hm
      have hmem := births_mem hch.ord p6 (List.mem_of_getElem? hjx)
      rw [hw] at hh
      injection hh with hh
      subst hh
      exact ⟨rfl, j, hmem.1, rfl⟩
    · rw [h3.old a hna, hfin] at hw
      cases hw

/-- A target born from the first scan is reached by the second one. -/
example : ∃ (F : Nat) (s s' : St ℚ) (reps : Nat → Rep ℚ) (a : Nat) (t u : Tgt ℚ),
    run exE exPrm F (exCalls.take 1) St.empty = some s ∧
    correct exE exS exPrm exCh F exScan ⟨0, none, 0⟩ s = some (s', reps) ∧
    s.heap a = some t ∧ u.id = t.id ∧ (exPrm.rlim ≤ u.r → s'.heap a = some u) := by
  obtain ⟨F, s', h⟩ := C26_defined exE_box exPrm [.correct exS exCh exScan ⟨0, none, 0⟩,
    .correct exS exCh exScan ⟨0, none, 0⟩]
    (by
      intro c hc
      simp only [List.mem_cons, List.not_mem_nil, or_false] at hc
      rcases hc with rfl | rfl <;> exact exOk)
    (by
      intro c hc
      simp only [List.mem_cons, List.not_mem_nil, or_false] at hc
      rcases hc with rfl | rfl <;> exact ⟨exS_costs, exCh_pick⟩)
    (by simp [Call.reports, exScan])
  have h := h F (le_refl _)
  obtain ⟨s, reps0, k1, k2, k3⟩ := exFirst F
  rw [run] at h
  simp only [step, k1, Option.map_some, run] at h
  cases hx : correct exE exS exPrm exCh F exScan ⟨0, none, 0⟩ s with
  | none => simp [hx] at h
  | some y =>
    obtain ⟨s2, reps⟩ := y
    have hne : s.targets ≠ [] := by intro h; rw [h] at k2; simp at k2
    obtain ⟨a, ha⟩ := List.exists_mem_of_ne_nil _ hne
    obtain ⟨t, ht, hr⟩ := k3 a ha
    have hrun : run exE exPrm F (exCalls.take 1) St.empty = some s := by
      simp only [exCalls, List.take_succ_cons, List.take_zero, run, step, k1, Option.map_some]
    obtain ⟨old, new, idx, x, q1, q2, q3, q3', _, q4, q5, _⟩ := C25_births exE_box exPrm F []
      (by simp) St.empty rfl exS exCh exScan _ exOk s reps0 k1
    have hold : old = [] := by simpa [St.empty] using q2
    rw [hold, List.nil_append] at q1
    have hg : Gated exE exS exScan s a := by
      obtain ⟨k, hk⟩ := List.mem_iff_getElem?.1 (by rw [← q1]; exact ha : a ∈ new)
      have hlt := (List.getElem?_eq_some_iff.1 hk).1
      obtain ⟨_, b, t', _, _, ht', _, _, hpdf⟩ := q5 k a _ _ hk
        (List.getElem?_eq_getElem (by omega)) (List.getElem?_eq_getElem (by omega))
      rw [ht] at ht'
      obtain rfl := Option.some.inj ht'
      have hj := q4 _ (List.getElem_mem (l := idx) (n := k) (by omega))
      obtain ⟨o, ho⟩ := C58_reports_kept exE_box exPrm F [] (by simp) St.empty rfl exS exCh
        exScan _ exOk s reps0 k1 _ _ (List.getElem?_eq_getElem hj)
      refine ⟨t, ht, Or.inr ⟨_, List.getElem_mem hj, ?_⟩⟩
      rw [hpdf, ho]
      generalize (exScan[idx[k]'(by omega)]'hj).val = z
      refine ⟨z, 0, ⟨le_refl _, le_refl _, le_refl _, zero_le_one⟩, ?_⟩
      show z - o + o - 1 ≤ z ∧ z ≤ z - o + o + 1 ∧ (0 : ℚ) ≤ 0 ∧ (0 : ℚ) ≤ 1
      exact ⟨by linarith, by linarith, le_refl _, zero_le_one⟩
    obtain ⟨_, _, _, _, c, v, k, u, _, _, _, _, hid, hv, _⟩ := C28_correct_fate exE_box exPrm F
      (exCalls.take 1) (fun c h => exCalls_ok c (List.mem_of_mem_take h)) s hrun exS exCh exScan _
      exOk s2 reps hx a t ht hg
    refine ⟨F, s, s2, reps, a, t, u, hrun, hx, ht, hid, fun h => (hv h ?_).1⟩
    show (1 : ℝ) ≤ 150
    norm_num

end Verif.Tracker
