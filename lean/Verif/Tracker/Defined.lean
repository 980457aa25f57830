import Verif.Tracker.Closed
import Verif.Tracker.Props4

/-! # When a call of `correct` is defined (C74) -/

namespace Verif.Tracker

open Verif.RTree (Rect)
open Verif.Cluster (Cl)
open Verif.Hyp Verif.Lap Verif.Murty

variable {P R O : Type}

/-- No target that the scan reaches is connected, by chains of touching boxes of targets and
reports, to more than 29 other targets. -/
def Small (E : Env P R O) (S : Sensor P R) (scan : List (Rep R)) (s : St P) : Prop :=
  ∀ a, Gated E S scan s a → ∀ l : List Nat, l.Nodup →
    (∀ b ∈ l, b = a ∨ ∃ j, Linked E scan s a j ∧ Linked E scan s b j) → l.length ≤ 30

/-- `cluster.hpp:56-136` on more than 30 targets. -/
theorem compute_limit {E : Env P R O} {S : Sensor P R} (hS : CostsOk S) (prm : Params)
    {pick : ∀ r c, List (Node r c) → Nat} (hp : ∀ r c, PickOk (pick r c)) (fuel : Nat) (wt : ℚ → ℝ)
    (ts : List (Nat × Tgt P)) (rs : List R) (hlen : 31 ≤ ts.length) :
    compute E S prm pick fuel wt ts rs = none := by
  unfold compute
  simp only
  generalize E.center (rs.map E.rpos ++ ts.map fun t => E.pos t.2.pdf) = o
  generalize hrl : rs.map (E.rLocal o) = rl
  generalize htl : (ts.map fun t => (t.1, forth E o t.2)) = tl
  have hl : 31 ≤ tl.length := by rw [← htl, List.length_map]; exact hlen
  rw [if_neg (by omega), cluster_target_limit (fun _ _ => hS.det _ _ _ _) (fun _ => hS.miss _ _ _)
    (fun _ => hS.fls _) hl (hp _ _)]

theorem compOf_limit {E : Env P R O} {S : Sensor P R} (hS : CostsOk S) (prm : Params)
    {pick : ∀ r c, List (Node r c) → Nat} (hp : ∀ r c, PickOk (pick r c)) (fuel : Nat) (wt : ℚ → ℝ)
    (h0 : Nat → Option (Tgt P)) (reps0 : Nat → Rep R) {c : Cl} (hlen : 31 ≤ c.targets.length) :
    compOf E S prm pick fuel wt h0 reps0 c = none := by
  unfold compOf
  cases hts : readAll h0 c.targets with
  | none => rfl
  | some ts =>
    refine compute_limit hS prm hp fuel wt ts _ ?_
    have := (readAll_spec hts).1
    rw [← this, List.length_map] at hlen
    exact hlen

/-- **C74** After any history, a call of `correct` whose costs are numbers runs to its
end, with a result that does not depend on the fuel, if no reached target is connected to more than
29 others; if one is, the call is undefined behaviour, however long it runs. -/
theorem C74_defined_iff {E : Env P R O} (hbox : BoxOk E) (prm : Params) (fuel0 : Nat)
    (calls : List (Call P R)) (hc : ∀ d ∈ calls, CallOk E d) (s : St P)
    (e : run E prm fuel0 calls St.empty = some s) (S : Sensor P R) (ch : Choices)
    (scan : List (Rep R)) (dflt : Rep R) (hok : CallOk E (.correct S ch scan dflt))
    (hk : CallCosts (.correct S ch scan dflt : Call P R)) :
    (Small E S scan s →
      ∃ F res, ∀ fuel, F ≤ fuel → correct E S prm ch fuel scan dflt s = some res) ∧
    (¬ Small E S scan s → ∀ fuel, correct E S prm ch fuel scan dflt s = none) := by
  have hs := run_inv hbox (Inv.empty E) hc e
  obtain ⟨hf, hch, hz⟩ := hok
  obtain ⟨cls, s1, rcid, p1, p2, p3, p4, p5, p6, p7, _⟩ := prepare_ok hbox hf hz hs.ok
  have hcl := prepare_closed hbox hf hz hs.ok p1
  have hnd : ∀ c ∈ cls, c.targets.Nodup := (List.nodup_flatMap.1 p2.tnd).1
  constructor
  · intro h
    refine correct_total hbox hf hk.1 prm hch hk.2 hz dflt hs ?_
    intro cls' s1' rcid' e' c hcm
    rw [p1, Option.some.injEq, Prod.mk.injEq, Prod.mk.injEq] at e'
    obtain ⟨rfl, rfl, rfl⟩ := e'
    rcases hct : c.targets with _ | ⟨a, l⟩
    · simp
    · have ha : a ∈ c.targets := by rw [hct]; exact List.mem_cons_self
      rw [← hct]
      exact h a ((p7 a).1 ⟨c, hcm, ha⟩) c.targets (hnd c hcm)
        fun b hb => ((hcl c hcm a ha).2 b).1 hb
  · intro h fuel
    simp only [Small, not_forall, not_le] at h
    obtain ⟨a, hg, l, hl, hla, hlen⟩ := h
    obtain ⟨c, hcm, ha⟩ := (p7 a).2 hg
    have hsub : l.Subperm c.targets := hl.subperm fun b hb => ((hcl c hcm a ha).2 b).2 (hla b hb)
    have hlen' : 31 ≤ c.targets.length := Nat.le_trans hlen hsub.length_le
    cases hr : correct E S prm ch fuel scan dflt s with
    | none => rfl
    | some r =>
      obtain ⟨cls', s1', rcid', new, d, _⟩ := correct_origin hbox hf hch hz hs (s2 := r.1)
        (reps := r.2) hr
      have e' := d.prep
      rw [p1, Option.some.injEq, Prod.mk.injEq, Prod.mk.injEq] at e'
      obtain ⟨rfl, rfl, rfl⟩ := e'
      obtain ⟨v, hv⟩ := d.comps c hcm
      rw [compOf_limit hk.1 prm hk.2 fuel ch.wt _ _ hlen'] at hv
      cases hv

/-- **C74, crash** Two identical scans of 31 or more reports make the tracker fail: if the boxes of
the reports touch the boxes of the targets started from them (after the way to a local frame and
back), and if the births of the first scan pass the threshold, then the first scan on an empty
tracker is processed and the second is undefined behaviour. -/
theorem C74_crash {E : Env P R O} (hbox : BoxOk E) (prm : Params) (S : Sensor P R)
    (ch : Choices) (scan : List (Rep R)) (dflt : Rep R)
    (hok : CallOk E (.correct S ch scan dflt)) (hk : CallCosts (.correct S ch scan dflt : Call P R))
    (hn : 31 ≤ scan.length) (hr1 : prm.rlim ≤ scan.length) (hr2 : prm.rlim ≤ S.lambdaB / scan.length)
    (ht : ∀ z ∈ scan, ∀ y ∈ scan, ∀ o,
      (E.rbox z.val).Touch (E.box (S.init (E.rGlobal o (E.rLocal o y.val))))) (fuel : Nat) :
    ∃ s, run E prm fuel [.correct S ch scan dflt] St.empty = some s ∧
      s.targets.length = scan.length ∧
      run E prm fuel [.correct S ch scan dflt, .correct S ch scan dflt] St.empty = none := by
  obtain ⟨s, reps, new, h1, h2, _, _, h4, _⟩ := C58_unreached_scan hbox prm fuel [] (by simp)
    St.empty rfl S ch scan dflt hok (by rintro a ⟨t, ht, _⟩; simp [St.empty] at ht)
  have hl := h4 hr1 hr2
  have h2' : s.targets = new := by simpa [St.empty] using h2
  have hrun : run E prm fuel [.correct S ch scan dflt] St.empty = some s := by
    simp [run, step, h1]
  have hcall : ∀ d ∈ [Call.correct S ch scan dflt], CallOk E d := by
    intro d hd
    rw [List.mem_singleton] at hd
    subst hd
    exact hok
  have hs := run_inv hbox (Inv.empty E) hcall hrun
  refine ⟨s, hrun, by rw [h2', hl], ?_⟩
  have hz0 : 0 < scan.length := by omega
  have hits : ∀ a ∈ new, Hits E scan s a 0 := by
    intro a ha
    obtain ⟨t, h⟩ := (hs.ok.live a).2 (by rw [h2']; exact ha)
    obtain ⟨y, hy, o, hp⟩ := first_scan hbox prm fuel S ch scan dflt hok s reps h1 a t h
    refine ⟨t, scan[0], h, List.getElem?_eq_getElem hz0, ?_⟩
    rw [hp]
    exact ht _ (List.getElem_mem hz0) y hy o
  have hns : ¬ Small E S scan s := by
    intro h
    have hpos : 0 < new.length := by omega
    have ha := List.getElem_mem hpos
    obtain ⟨t, z, g1, g2, g3⟩ := hits _ ha
    have := h new[0] ⟨t, g1, Or.inr ⟨z, List.mem_of_getElem? g2, g3⟩⟩ new
      (by rw [← h2']; exact hs.ok.nodup)
      (fun b hb => Or.inr ⟨0, ⟨0, hits _ ha, .refl⟩, ⟨0, hits b hb, .refl⟩⟩)
    omega
  have := (C74_defined_iff hbox prm fuel _ hcall s hrun S ch scan dflt hok hk).2 hns fuel
  simp [run, step, h1, this]

/-- A scan of 31 reports at the same place. -/
def exCrowd : List (Rep ℚ) := List.replicate 31 ⟨0, none, 0⟩

/-- The example sensor with two expected births per scan. -/
noncomputable def exSB : Sensor ℚ ℚ := { exS with lambdaB := 2 }

theorem exSB_costs : CostsOk exSB := ⟨exS_costs.det, exS_costs.miss, exS_costs.fls⟩

example (fuel : Nat) : ∃ s, run exE exPrm fuel [.correct exSB exCh exCrowd ⟨0, none, 0⟩] St.empty =
      some s ∧ s.targets.length = 31 ∧
    run exE exPrm fuel [.correct exSB exCh exCrowd ⟨0, none, 0⟩,
      .correct exSB exCh exCrowd ⟨0, none, 0⟩] St.empty = none := by
  refine C74_crash exE_box exPrm exSB exCh exCrowd ⟨0, none, 0⟩
    ⟨exS_fov, exCh_ok, fun z _ => exE_rbox _⟩ ⟨exSB_costs, exCh_pick⟩ (by decide) ?_ ?_ ?_ fuel
  · simp only [exPrm, exCrowd, List.length_replicate]; norm_num
  · simp only [exPrm, exSB, exCrowd, List.length_replicate]; norm_num
  · intro z hz y hy o
    rw [exCrowd] at hz hy
    obtain rfl := List.eq_of_mem_replicate hz
    obtain rfl := List.eq_of_mem_replicate hy
    refine ⟨0, 0, ?_, ?_⟩ <;> simp only [exE, exSB, exS, Rect.Mem] <;> norm_num

/-- The third call of the example history is small: there are three targets. -/
example : ∃ (F : Nat) (s : St ℚ), run exE exPrm F (exCalls.take 2) St.empty = some s ∧
    Small exE exS exScan s := by
  obtain ⟨F, s1, s, reps, h1, h2⟩ := exCorrect
  refine ⟨F, s1, h1, ?_⟩
  by_contra h
  have := (C74_defined_iff exE_box exPrm F _ exTake_ok s1 h1 exS exCh exScan ⟨0, none, 0⟩ exOk
    ⟨exS_costs, exCh_pick⟩).2 h F
  rw [h2] at this
  cases this

end Verif.Tracker
