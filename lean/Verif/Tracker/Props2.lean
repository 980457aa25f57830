import Verif.Tracker.Props

/-! # Properties of the tracker: births, existence probabilities, queries, order (C24, C25, C29–C31) -/

namespace Verif.Tracker

open Verif.RTree (Rect WF items)
open Verif.Cluster (Cl)
open Verif.Hyp Verif.Lap Verif.Murty

variable {P R O : Type}

/-! ## C24 -/

/-- Two states of the loop that differ in the `rB` of reports only. -/
structure Sim (g g' : Cfg P R) : Prop where
  st : g.st = g'.st
  pc : g.pc = g'.pc
  reps : ∀ j, (g.reps j).val = (g'.reps j).val ∧ (g.reps j).cid = (g'.reps j).cid

theorem writeReps_sim {reps reps' : Nat → Rep R} (l : List Nat) (vs : List R) (bs : List (Option ℝ))
    (h : ∀ j, (reps j).val = (reps' j).val ∧ (reps j).cid = (reps' j).cid) :
    ∀ j, (writeReps reps l vs bs j).val = (writeReps reps' l vs bs j).val ∧
      (writeReps reps l vs bs j).cid = (writeReps reps' l vs bs j).cid := by
  induction l generalizing reps reps' vs bs with
  | nil => simpa only [writeReps] using h
  | cons i l ih =>
    cases vs with
    | nil => simpa only [writeReps] using h
    | cons v vs =>
      cases bs with
      | nil => simpa only [writeReps] using h
      | cons b bs =>
        simp only [writeReps]
        apply ih
        intro j
        by_cases hj : j = i
        · subst hj; simp [(h j).2]
        · simpa [hj] using h j

theorem clStep_sim {E : Env P R O} {S : Sensor P R} {prm : Params}
    {pick : ∀ r c, List (Node r c) → Nat} {fuel : Nat} {wt : ℚ → ℝ} {cls : List Cl} {i : Nat}
    {g g' : Cfg P R} (h : Sim g g') :
    (clStep E S prm pick fuel wt cls i g = none ∧ clStep E S prm pick fuel wt cls i g' = none) ∨
    ∃ k k', clStep E S prm pick fuel wt cls i g = some k ∧
      clStep E S prm pick fuel wt cls i g' = some k' ∧ Sim k k' := by
  obtain ⟨st, reps, pc⟩ := g
  obtain ⟨st', reps', pc'⟩ := g'
  obtain ⟨h1, h2, h3⟩ := h
  simp only at h1 h2 h3
  subst h1 h2
  have hr : ∀ c : Cl, (c.reports.map fun j => (reps j).val) = c.reports.map fun j => (reps' j).val :=
    fun c => List.map_congr_left fun j _ => (h3 j).1
  unfold clStep
  cases hi : cls[i]? with
  | none => left; exact ⟨rfl, rfl⟩
  | some c =>
    simp only
    cases hp : pc i with
    | zero =>
      simp only
      cases removeLoop E c.targets st with
      | none => left; exact ⟨rfl, rfl⟩
      | some s => right; exact ⟨_, _, rfl, rfl, ⟨rfl, rfl, h3⟩⟩
    | succ p =>
      cases p with
      | zero =>
        simp only
        cases readAll st.heap c.targets with
        | none => left; exact ⟨rfl, rfl⟩
        | some ts =>
          simp only [hr c]
          cases compute E S prm pick fuel wt ts (c.reports.map fun j => (reps' j).val) with
          | none => left; exact ⟨rfl, rfl⟩
          | some v =>
            right
            exact ⟨_, _, rfl, rfl, ⟨rfl, rfl, writeReps_sim _ _ _ h3⟩⟩
      | succ p =>
        cases p with
        | zero =>
          simp only
          cases settle E prm c.targets st with
          | none => left; exact ⟨rfl, rfl⟩
          | some s => right; exact ⟨_, _, rfl, rfl, ⟨rfl, rfl, h3⟩⟩
        | succ p => left; exact ⟨rfl, rfl⟩

theorem clRun_sim {E : Env P R O} {S : Sensor P R} {prm : Params}
    {pick : ∀ r c, List (Node r c) → Nat} {fuel : Nat} {wt : ℚ → ℝ} {cls : List Cl} (l : List Nat)
    {g g' k : Cfg P R} (h : Sim g g') (e : clRun E S prm pick fuel wt cls l g = some k) :
    ∃ k', clRun E S prm pick fuel wt cls l g' = some k' ∧ Sim k k' := by
  induction l generalizing g g' with
  | nil =>
    simp only [clRun, Option.some.injEq] at e
    subst e
    exact ⟨g', rfl, h⟩
  | cons i l ih =>
    simp only [clRun] at e ⊢
    rcases clStep_sim (E := E) (S := S) (prm := prm) (pick := pick) (fuel := fuel) (wt := wt)
      (cls := cls) (i := i) h with ⟨h1, _⟩ | ⟨k1, k2, h1, h2, h3⟩
    · simp [h1] at e
    · simp only [h1] at e
      simp only [h2]
      exact ih h3 e

theorem rBsum_congr {n : Nat} {reps reps' : Nat → Rep R} (h : ∀ j < n, (reps j).rB = (reps' j).rB) :
    rBsum n reps = rBsum n reps' := by
  unfold rBsum
  have : ∀ (l : List Nat) (x : Option ℝ), (∀ j ∈ l, (reps j).rB = (reps' j).rB) →
      l.foldl (addRB reps) x =
      l.foldl (addRB reps') x := by
    intro l
    induction l with
    | nil => intro x _; rfl
    | cons j l ih =>
      intro x hl
      rw [List.foldl_cons, List.foldl_cons, show addRB reps x j = addRB reps' x j by
        simp only [addRB, hl j List.mem_cons_self]]
      exact ih _ fun i hi => hl i (List.mem_cons_of_mem _ hi)
  exact this _ _ fun j hj => h j (List.mem_range.1 hj)

theorem birthLoop_congr {E : Env P R O} {S : Sensor P R} {prm : Params} {alloc : List Nat → Nat}
    {sum : ℝ} {reps reps' : Nat → Rep R} (l : List Nat) (h : ∀ j ∈ l, reps j = reps' j) (s : St P) :
    birthLoop E S prm alloc sum reps l s = birthLoop E S prm alloc sum reps' l s := by
  induction l generalizing s with
  | nil => rfl
  | cons j l ih =>
    have ih := ih fun i hi => h i (List.mem_cons_of_mem _ hi)
    simp only [birthLoop, h j List.mem_cons_self, ih]

/-- **C24** In every `correct` call each report belongs to exactly one cluster, and its `rB` is the
value that this cluster computed for it in this call. -/
theorem C24_fresh_rB {E : Env P R O} (hbox : BoxOk E) (prm : Params) (fuel : Nat)
    (calls : List (Call P R)) (hc : ∀ d ∈ calls, CallOk E d) (s : St P)
    (e : run E prm fuel calls St.empty = some s) (S : Sensor P R) (ch : Choices)
    (scan : List (Rep R)) (dflt : Rep R) (hok : CallOk E (.correct S ch scan dflt)) (s' : St P)
    (reps : Nat → Rep R) (e' : correct E S prm ch fuel scan dflt s = some (s', reps)) :
    ∃ cls s1 rcid, prepare E S scan s = some (cls, s1, rcid) ∧ ∀ j < scan.length,
      ∃ (i k : Nat) (c : Cl) (v : Comp P R), cls[i]? = some c ∧ c.reports[k]? = some j ∧
        (∀ (i' : Nat) c', cls[i']? = some c' → j ∈ c'.reports → i' = i) ∧
        compOf E S prm ch.pick fuel ch.wt s1.heap (initReps scan rcid dflt) c = some v ∧
        v.rB[k]? = some (reps j).rB := by
  have hs := run_inv hbox (Inv.empty E) hc e
  obtain ⟨hf, hch, hz⟩ := hok
  obtain ⟨cls, s1, rcid, new, h1, _⟩ := correct_origin hbox hf hch hz hs e'
  obtain ⟨cls', s1', rcid', p1, p2, p3, p4, p5, p6, _⟩ := prepare_ok hbox hf hz hs.ok
  rw [h1.prep, Option.some.injEq, Prod.mk.injEq, Prod.mk.injEq] at p1
  obtain ⟨rfl, rfl, rfl⟩ := p1
  refine ⟨cls, s1, rcid, h1.prep, fun j hj => ?_⟩
  obtain ⟨c, hcm, hjc⟩ := List.mem_flatMap.1 (p6.mem_iff.2 (List.mem_range.2 hj))
  obtain ⟨i, hi⟩ := List.mem_iff_getElem?.1 hcm
  obtain ⟨v, hv⟩ := h1.comps c hcm
  obtain ⟨_, l2, l3, _⟩ := compOf_length hv
  obtain ⟨f1, f2⟩ := find_reports p2.rnd hi hjc
  obtain ⟨k, w, b, k1, k2, k3, k4⟩ := writeReps_mem (reps := initReps scan rcid dflt)
    ((List.nodup_flatMap.1 p2.rnd).1 c hcm) l2 l3 hjc
  refine ⟨i, k, c, v, hi, k1, f2, hv, ?_⟩
  rw [h1.rep]
  unfold finalReps
  rw [f1]
  simp only [hv, k4]
  exact k3

/-- **C24, no stale read** Whatever the reports hold in `rB` when `correct` is called (leftovers or
uninitialised memory), the result is the same. -/
theorem C24_no_stale_rB {E : Env P R O} (hbox : BoxOk E) (prm : Params) (fuel : Nat)
    (calls : List (Call P R)) (hc : ∀ d ∈ calls, CallOk E d) (s : St P)
    (e : run E prm fuel calls St.empty = some s) (S : Sensor P R) (ch : Choices)
    (scan scan' : List (Rep R)) (dflt : Rep R) (hok : CallOk E (.correct S ch scan dflt))
    (hsame : scan.map (fun z => (z.val, z.cid)) = scan'.map fun z => (z.val, z.cid)) (s' : St P)
    (reps : Nat → Rep R) (e' : correct E S prm ch fuel scan dflt s = some (s', reps)) :
    ∃ reps', correct E S prm ch fuel scan' dflt s = some (s', reps') ∧
      ∀ j < scan.length, reps' j = reps j := by
  have hs := run_inv hbox (Inv.empty E) hc e
  obtain ⟨hf, hch, hz⟩ := hok
  have hlen : scan.length = scan'.length := by simpa using congrArg List.length hsame
  have hget : ∀ j : Nat, (scan[j]?.map fun z => (z.val, z.cid)) =
      scan'[j]?.map fun z => (z.val, z.cid) := by
    intro j
    rw [← List.getElem?_map, ← List.getElem?_map, hsame]
  have hcid : (fun j : Nat => (scan[j]?.map Rep.cid).getD 0) =
      fun j => (scan'[j]?.map Rep.cid).getD 0 := by
    funext j
    have := congrArg (Option.map Prod.snd) (hget j)
    simp only [Option.map_map] at this
    exact congrArg (Option.getD · 0) this
  have hvals : scan.map Rep.val = scan'.map Rep.val := by
    have := congrArg (List.map Prod.fst) hsame
    rw [List.map_map, List.map_map] at this
    exact this
  have hprep : prepare E S scan' s = prepare E S scan s := by
    unfold prepare
    rw [← hvals, ← hlen, ← hcid]
  have hz' : ∀ z ∈ scan', (E.rbox z.val).Valid := by
    intro z hz'
    have : z.val ∈ scan.map Rep.val := by rw [hvals]; exact List.mem_map_of_mem hz'
    obtain ⟨w, hw, hw'⟩ := List.mem_map.1 this
    rw [← hw']; exact hz w hw
  obtain ⟨cls, s1, rcid, p1, p2, p3, p4, p5, p6, _⟩ := prepare_ok hbox hf hz hs.ok
  have hinit : ∀ j, (initReps scan rcid dflt j).val = (initReps scan' rcid dflt j).val ∧
      (initReps scan rcid dflt j).cid = (initReps scan' rcid dflt j).cid := by
    intro j
    refine ⟨?_, rfl⟩
    have := hget j
    simp only [initReps, List.getD_eq_getElem?_getD]
    cases h1 : scan[j]? <;> cases h2 : scan'[j]? <;> simp_all
  unfold correct at e' ⊢
  rw [hprep]
  simp only [p1] at e' ⊢
  cases hr : clRun E S prm ch.pick fuel ch.wt cls (ch.sched cls)
      ⟨s1, initReps scan rcid dflt, fun _ => 0⟩ with
  | none => simp [hr] at e'
  | some g =>
    simp only [hr] at e'
    obtain ⟨g', hr', hsim⟩ := clRun_sim (ch.sched cls)
      (g := ⟨s1, initReps scan rcid dflt, fun _ => 0⟩)
      (g' := ⟨s1, initReps scan' rcid dflt, fun _ => 0⟩) ⟨rfl, rfl, hinit⟩ hr
    simp only [hr']
    -- the reports agree
    have hrep : ∀ j < scan.length, g'.reps j = g.reps j := by
      intro j hj
      rcases clRun_spec (E := E) hbox (S := S) (prm := prm) (pick := ch.pick) (fuel := fuel)
        (wt := ch.wt) p3 (reps0 := initReps scan rcid dflt) p2 (ch.sched cls) (hch.sched cls) with
        ⟨_, q⟩ | ⟨c1, q, q1, _, _, _, _, q2⟩
      · rw [hr] at q; cases q
      rcases clRun_spec (E := E) hbox (S := S) (prm := prm) (pick := ch.pick) (fuel := fuel)
        (wt := ch.wt) p3 (reps0 := initReps scan' rcid dflt) p2 (ch.sched cls) (hch.sched cls) with
        ⟨_, q'⟩ | ⟨c1', q', q1', _, _, _, _, q2'⟩
      · rw [hr'] at q'; cases q'
      rw [hr] at q1
      rw [hr'] at q1'
      obtain rfl := Option.some.inj q1
      obtain rfl := Option.some.inj q1'
      obtain ⟨c, hcm, hjc⟩ := List.mem_flatMap.1 (p6.mem_iff.2 (List.mem_range.2 hj))
      obtain ⟨i, hi⟩ := List.mem_iff_getElem?.1 hcm
      obtain ⟨f1, _⟩ := find_reports p2.rnd hi hjc
      obtain ⟨v, hv⟩ := c1 c hcm
      have hv' : compOf E S prm ch.pick fuel ch.wt s1.heap (initReps scan' rcid dflt) c = some v := by
        rw [← hv]
        unfold compOf
        have : (c.reports.map fun j => (initReps scan' rcid dflt j).val) =
            c.reports.map fun j => (initReps scan rcid dflt j).val :=
          List.map_congr_left fun j _ => ((hinit j).1).symm
        rw [this]
      obtain ⟨_, l2, l3, _⟩ := compOf_length hv
      have hnd := (List.nodup_flatMap.1 p2.rnd).1 c hcm
      obtain ⟨k, w, b, k1, k2, k3, k4⟩ := writeReps_mem (reps := initReps scan rcid dflt) hnd l2 l3 hjc
      obtain ⟨k', w', b', k1', k2', k3', k4'⟩ :=
        writeReps_mem (reps := initReps scan' rcid dflt) hnd l2 l3 hjc
      have hkk : k = k' := by
        obtain ⟨a1, a2⟩ := List.getElem?_eq_some_iff.1 k1
        obtain ⟨b1, b2⟩ := List.getElem?_eq_some_iff.1 k1'
        exact (List.Nodup.getElem_inj_iff hnd).1 (a2.trans b2.symm)
      subst hkk
      rw [k2] at k2'
      rw [k3] at k3'
      obtain rfl := Option.some.inj k2'
      obtain rfl := Option.some.inj k3'
      rw [q2, q2']
      unfold finalReps
      rw [f1]
      simp only [hv, hv', k4, k4']
      rfl
    have hbirth : birth E S prm ch.alloc ch.ord cls scan'.length g'.reps g'.st =
        birth E S prm ch.alloc ch.ord cls scan.length g.reps g.st := by
      unfold birth
      rw [← hlen, ← hsim.st, rBsum_congr (n := scan.length) (reps := g'.reps) (reps' := g.reps)
        fun j hj => by rw [hrep j hj]]
      cases rBsum scan.length g.reps with
      | none => rfl
      | some sum =>
        simp only
        rw [birthLoop_congr _ fun j hj => hrep j (List.mem_range.1
          (p6.mem_iff.1 ((hch.ord _).mem_iff.1 hj)))]
    rw [hbirth]
    cases hb : birth E S prm ch.alloc ch.ord cls scan.length g.reps g.st with
    | none => simp [hb] at e'
    | some s2 =>
      simp only [hb, Option.some.injEq, Prod.mk.injEq] at e'
      obtain ⟨rfl, rfl⟩ := e'
      exact ⟨g'.reps, rfl, hrep⟩

/-- The second scan of the example history. -/
theorem exCorrect : ∃ F s1 s reps, run exE exPrm F (exCalls.take 2) St.empty = some s1 ∧
    correct exE exS exPrm exCh F exScan ⟨0, none, 0⟩ s1 = some (s, reps) := by
  obtain ⟨F, s, h⟩ := exRun
  have h := h F (le_refl _)
  have e : exCalls = exCalls.take 2 ++ [.correct exS exCh exScan ⟨0, none, 0⟩] := rfl
  rw [e, run_append, Option.bind_eq_some_iff] at h
  obtain ⟨s1, h1, h2⟩ := h
  simp only [run, step] at h2
  cases hc : correct exE exS exPrm exCh F exScan ⟨0, none, 0⟩ s1 with
  | none => simp [hc] at h2
  | some x => exact ⟨F, s1, x.1, x.2, h1, hc⟩

theorem exOk : CallOk exE (.correct exS exCh exScan ⟨0, none, 0⟩) :=
  ⟨exS_fov, exCh_ok, fun z _ => exE_rbox _⟩

theorem exTake_ok : ∀ c ∈ exCalls.take 2, CallOk exE c :=
  fun c h => exCalls_ok c (List.mem_of_mem_take h)

example : ∃ (F : Nat) (s1 s : St ℚ) (reps : Nat → Rep ℚ) (b : Option ℝ) (v : Comp ℚ ℚ),
    correct exE exS exPrm exCh F exScan ⟨0, none, 0⟩ s1 = some (s, reps) ∧
    b ∈ v.rB ∧ (reps 0).rB = b := by
  obtain ⟨F, s1, s, reps, h1, h2⟩ := exCorrect
  obtain ⟨_, _, _, _, h⟩ := C24_fresh_rB exE_box exPrm F _ exTake_ok s1 h1 exS exCh exScan _ exOk
    s reps h2
  obtain ⟨i, k, c, v, _, _, _, _, hb⟩ := h 0 (by decide)
  exact ⟨F, s1, s, reps, _, v, h2, List.mem_of_getElem? hb, rfl⟩

example : ∃ (F : Nat) (s1 s : St ℚ) (reps : Nat → Rep ℚ),
    correct exE exS exPrm exCh F [⟨0, some 5, 0⟩, ⟨1, none, 0⟩, ⟨4, some (1/2), 3⟩] ⟨0, none, 0⟩ s1 =
      some (s, reps) := by
  obtain ⟨F, s1, s, reps, h1, h2⟩ := exCorrect
  obtain ⟨reps', h, _⟩ := C24_no_stale_rB exE_box exPrm F _ exTake_ok s1 h1 exS exCh exScan
    [⟨0, some 5, 0⟩, ⟨1, none, 0⟩, ⟨4, some (1/2), 3⟩] _ exOk rfl s reps h2
  exact ⟨F, s1, s, reps', h⟩

/-! ## C25 -/

theorem rBsum_spec {n : Nat} {reps : Nat → Rep R} {sum : ℝ} :
    rBsum n reps = some sum ↔ (∀ j < n, ∃ b, (reps j).rB = some b) ∧
      sum = ((List.range n).map fun j => ((reps j).rB).getD 0).sum := by
  have key : ∀ (l : List Nat) (x : ℝ), (∀ j ∈ l, ∃ b, (reps j).rB = some b) →
      l.foldl (addRB reps) (some x) = some (x + (l.map fun j => ((reps j).rB).getD 0).sum) := by
    intro l
    induction l with
    | nil => intro x _; simp
    | cons j l ih =>
      intro x hl
      obtain ⟨b, hb⟩ := hl j List.mem_cons_self
      rw [List.foldl_cons]
      simp only [addRB, hb]
      rw [ih _ fun i hi => hl i (List.mem_cons_of_mem _ hi), List.map_cons, List.sum_cons, hb,
        Option.getD_some, add_assoc]
  have knone : ∀ (l : List Nat), l.foldl (addRB reps) (none : Option ℝ) = none := by
    intro l
    induction l with
    | nil => rfl
    | cons j l ih => rw [List.foldl_cons]; exact ih
  have kbad : ∀ (l : List Nat) (x : Option ℝ), (∃ j ∈ l, (reps j).rB = none) →
      l.foldl (addRB reps) x = none := by
    intro l
    induction l with
    | nil => rintro x ⟨j, hj, _⟩; simp at hj
    | cons i l ih =>
      rintro x ⟨j, hj, hn⟩
      rw [List.foldl_cons]
      rcases List.mem_cons.1 hj with rfl | hj
      · have : addRB reps x j = none := by
          simp only [addRB, hn]
        rw [this]
        exact knone l
      · exact ih _ ⟨j, hj, hn⟩
  unfold rBsum
  by_cases h : ∀ j < n, ∃ b, (reps j).rB = some b
  · rw [key _ 0 fun j hj => h j (List.mem_range.1 hj)]
    simp only [zero_add, Option.some.injEq]
    exact ⟨fun h' => ⟨h, h'.symm⟩, fun h' => h'.2.symm⟩
  · have : ∃ j ∈ List.range n, (reps j).rB = none := by
      by_contra hcon
      apply h
      intro j hj
      cases hb : (reps j).rB with
      | none => exact absurd ⟨j, List.mem_range.2 hj, hb⟩ hcon
      | some b => exact ⟨b, rfl⟩
    rw [kbad _ _ this]
    constructor
    · intro h'; cases h'
    · rintro ⟨h', _⟩; exact absurd h' h

theorem bornOf_sum {S : Sensor P R} {prm : Params} {sum : ℝ} {reps : Nat → Rep R} (hl : 0 ≤ S.lambdaB)
    (hsum : 0 < sum) (l : List Nat) (h : ∀ j ∈ l, ∃ b, (reps j).rB = some b ∧ 0 ≤ b) :
    ((bornOf S prm sum reps l).map (·.2)).sum ≤
      (l.map fun j => ((reps j).rB).getD 0).sum * S.lambdaB / sum := by
  classical
  induction l with
  | nil => simp [bornOf]
  | cons j l ih =>
    have ih := ih fun i hi => h i (List.mem_cons_of_mem _ hi)
    obtain ⟨b, hb, hb0⟩ := h j List.mem_cons_self
    rw [List.map_cons, List.sum_cons, hb, Option.getD_some, add_mul, add_div]
    have hx : 0 ≤ b * S.lambdaB / sum := div_nonneg (mul_nonneg hb0 hl) hsum.le
    unfold bornOf at ih ⊢
    rw [List.filterMap_cons]
    simp only [hb]
    by_cases hlim : prm.rlim ≤ b * S.lambdaB / sum
    · simp only [hlim, if_true, List.map_cons, List.sum_cons]
      linarith
    · simp only [hlim, if_false]
      linarith

/-- **C25** With `reps` the reports as `correct` leaves them: there are a list `new` of newborn
targets, appended to the list of targets, and a list `idx` of pairwise different reports, such that
the `k`-th newborn target comes from the `k`-th report, which has `rB`·λ/Σ`rB` ≥ `r_lim`, and has
this as existence probability, capped at `rB_max`.  If Σ`rB` < `r_lim` (or is not a number) there
are none.  If no `rB` is negative, the uncapped probabilities add up to at most `lambdaB`.  No birth
is forgotten: if Σ`rB` ≥ `r_lim`, every report with `rB`·λ/Σ`rB` ≥ `r_lim` is in `idx`.  The other targets were there
before, under the same `id`. -/
theorem C25_births {E : Env P R O} (hbox : BoxOk E) (prm : Params) (fuel : Nat)
    (calls : List (Call P R)) (hc : ∀ d ∈ calls, CallOk E d) (s : St P)
    (e : run E prm fuel calls St.empty = some s) (S : Sensor P R) (ch : Choices)
    (scan : List (Rep R)) (dflt : Rep R) (hok : CallOk E (.correct S ch scan dflt)) (s' : St P)
    (reps : Nat → Rep R) (e' : correct E S prm ch fuel scan dflt s = some (s', reps)) :
    ∃ (old new idx : List Nat) (x : List ℝ), s'.targets = old ++ new ∧ old.Sublist s.targets ∧
      new.length = idx.length ∧ x.length = idx.length ∧ idx.Nodup ∧ (∀ j ∈ idx, j < scan.length) ∧
      (∀ (k : Nat) a j y, new[k]? = some a → idx[k]? = some j → x[k]? = some y →
        prm.rlim ≤ y ∧ ∃ b t, (reps j).rB = some b ∧
          y = b * S.lambdaB / ((List.range scan.length).map fun j => ((reps j).rB).getD 0).sum ∧
          s'.heap a = some t ∧ t.r = min y prm.rBmax ∧ t.r ≤ prm.rBmax ∧
          t.pdf = S.init (reps j).val) ∧
      (((List.range scan.length).map fun j => ((reps j).rB).getD 0).sum < prm.rlim ∨
        (∃ j < scan.length, (reps j).rB = none) → new = []) ∧
      (0 < prm.rlim → 0 ≤ S.lambdaB → (∀ j < scan.length, ∃ b, (reps j).rB = some b ∧ 0 ≤ b) →
        x.sum ≤ S.lambdaB) ∧
      ((∀ j < scan.length, ∃ b, (reps j).rB = some b) →
        prm.rlim ≤ ((List.range scan.length).map fun j => ((reps j).rB).getD 0).sum →
        ∀ j < scan.length, ∀ b, (reps j).rB = some b → prm.rlim ≤
          b * S.lambdaB / ((List.range scan.length).map fun j => ((reps j).rB).getD 0).sum →
          j ∈ idx) ∧
      Stay s s' old := by
  have hs := run_inv hbox (Inv.empty E) hc e
  obtain ⟨hf, hch, hz⟩ := hok
  obtain ⟨cls, s1, rcid, new, h1, h2⟩ := correct_origin hbox hf hch hz hs e'
  obtain ⟨cls', s1', rcid', p1, p2, p3, p4, p5, p6, _⟩ := prepare_ok hbox hf hz hs.ok
  rw [h1.prep, Option.some.injEq, Prod.mk.injEq, Prod.mk.injEq] at p1
  obtain ⟨rfl, rfl, rfl⟩ := p1
  refine ⟨_, new, (births S prm ch.ord cls scan.length reps).map (·.1),
    (births S prm ch.ord cls scan.length reps).map (·.2), h1.targets, List.filter_sublist,
    by rw [h1.len, List.length_map], by simp, births_nodup hch.ord p6, ?_, ?_, ?_, ?_, ?_,
    ?_⟩
  rotate_right
  · exact origin_stay hs h1 h2.2
  · intro j hj
    obtain ⟨⟨j', x⟩, hm, rfl⟩ := List.mem_map.1 hj
    exact (births_mem hch.ord p6 hm).1
  · intro k a j y hk hj hy
    rw [List.getElem?_map, Option.map_eq_some_iff] at hj hy
    obtain ⟨⟨j1, y1⟩, hb1, rfl⟩ := hj
    obtain ⟨⟨j2, y2⟩, hb2, rfl⟩ := hy
    rw [hb1] at hb2
    obtain ⟨rfl, rfl⟩ := Prod.mk.inj (Option.some.inj hb2)
    obtain ⟨hlt, hlim, b, sum, q1, q2, q3, q4⟩ :=
      births_mem hch.ord p6 (List.mem_of_getElem? hb1)
    have := h1.born k a j1 y1 hk hb1
    refine ⟨hlim, b, _, q1, ?_, this, rfl, min_le_right _ _, rfl⟩
    rw [q4, (rBsum_spec.1 q2).2]
  · intro h
    have : births S prm ch.ord cls scan.length reps = [] := by
      rw [List.eq_nil_iff_forall_not_mem]
      rintro ⟨j, y⟩ hm
      obtain ⟨_, _, b, sum, _, q2, q3, _⟩ := births_mem hch.ord p6 hm
      obtain ⟨r1, r2⟩ := rBsum_spec.1 q2
      rcases h with h | ⟨j, hj, hn⟩
      · rw [← r2] at h; exact absurd q3 (not_le.2 h)
      · obtain ⟨b, hb⟩ := r1 j hj
        rw [hb] at hn; cases hn
    rw [← List.length_eq_zero_iff, h1.len, this]; rfl
  · intro hlim hl hpos
    unfold births
    cases hr : rBsum scan.length reps with
    | none => simpa using hl
    | some sum =>
      simp only
      split
      · rename_i hle
        have hsum : 0 < sum := lt_of_lt_of_le hlim hle
        have hperm := (hch.ord (cls.flatMap Cl.reports)).trans p6
        refine (bornOf_sum hl hsum _ ?_).trans ?_
        · intro j hj
          exact hpos j (List.mem_range.1 (hperm.mem_iff.1 hj))
        · rw [(hperm.map _).sum_eq, ← (rBsum_spec.1 hr).2, mul_comm, mul_div_assoc,
            div_self hsum.ne', mul_one]
      · simpa using hl
  · intro hall hsum j hj b hb hlim
    rw [List.mem_map]
    refine ⟨(j, b * S.lambdaB /
      ((List.range scan.length).map fun j => ((reps j).rB).getD 0).sum), ?_, rfl⟩
    · unfold births
      rw [rBsum_spec.2 ⟨hall, rfl⟩]
      simp only
      rw [if_pos hsum]
      unfold bornOf
      rw [List.mem_filterMap]
      refine ⟨j, ?_, ?_⟩
      · rw [(hch.ord _).mem_iff, p6.mem_iff]; exact List.mem_range.2 hj
      · simp only [hb]
        rw [if_pos hlim]

/-- The birth probabilities that a cluster computes are in [0,1]. -/
theorem compute_rB {E : Env P R O} {S : Sensor P R} (hS : CostsOk S) (prm : Params)
    {pick : ∀ r c, List (Node r c) → Nat} (hp : ∀ r c, PickOk (pick r c))
    (ts : List (Nat × Tgt P)) (rs : List R) (hlen : ts.length ≤ 30) :
    ∃ F, ∀ fuel, F ≤ fuel → ∃ v, compute E S prm pick fuel ew ts rs = some v ∧
      ∀ x ∈ v.rB, ∃ b, x = some b ∧ 0 ≤ b ∧ b ≤ 1 := by
  by_cases h0 : ts.length = 0
  · obtain rfl := List.length_eq_zero_iff.1 h0
    refine ⟨0, fun fuel _ => ⟨_, rfl, ?_⟩⟩
    intro x hx
    obtain ⟨_, _, rfl⟩ := List.mem_map.1 hx
    exact ⟨1, rfl, zero_le_one, le_refl _⟩
  · set o := E.center (rs.map E.rpos ++ ts.map fun t => E.pos t.2.pdf) with ho
    set rl := rs.map (E.rLocal o) with hrl
    set tl := ts.map fun t => (t.1, forth E o t.2) with htl
    have hl : tl.length = ts.length := by simp [htl]
    obtain ⟨F, L, rB, g1, _, _, g2⟩ := C22_birth (M := tl.length) (N := rl.length)
      (det := fun i j => S.detCost (tl.get i).1 (tl.get i).2.r (tl.get i).2.pdf (rl.get j))
      (miss := fun i => S.missCost (tl.get i).1 (tl.get i).2.r (tl.get i).2.pdf)
      (fls := fun i => S.flsCost (tl.get i).2.r)
      (fun _ _ => hS.det _ _ _ _) (fun _ => hS.miss _ _ _) (fun _ => hS.fls _)
      (by omega) (by omega) (hp _ _) prm.wlim prm.nhypMax
    refine ⟨F, fun fuel hfu => ?_⟩
    have g := g1 fuel hfu
    unfold clusterRB at g
    rw [if_neg (by omega)] at g
    cases ha : hypotheses (pick tl.length (rl.length + 2 * tl.length)) fuel ew prm.wlim prm.nhypMax
      (costMatrix (fun (i : Fin tl.length) (j : Fin rl.length) =>
          S.detCost (tl.get i).1 (tl.get i).2.r (tl.get i).2.pdf (rl.get j))
        (fun i => S.missCost (tl.get i).1 (tl.get i).2.r (tl.get i).2.pdf)
        (fun i => S.flsCost (tl.get i).2.r)) with
    | none => rw [ha] at g; cases g
    | some a =>
      rw [ha] at g
      simp only at g
      by_cases hn : a.n = 0
      · refine ⟨⟨0, tl.map fun t => back E t.2, rl.map (E.rGlobal o), rl.map fun _ => some 1⟩, ?_, ?_⟩
        · unfold compute
          simp only [← ho, ← hrl, ← htl]
          rw [if_neg (by omega), ha]
          simp only [hn, if_true]
        · intro x hx
          obtain ⟨_, _, rfl⟩ := List.mem_map.1 hx
          exact ⟨1, rfl, zero_le_one, le_refl _⟩
      · refine ⟨⟨a.n, List.ofFn fun i => back E (corrected E S (tl.get i).1 (tl.get i).2 rl
          (List.ofFn fun j => a.R i j / a.wsum) (a.rowSum i)), rl.map (E.rGlobal o),
          List.ofFn a.rB⟩, ?_, ?_⟩
        · unfold compute
          simp only [← ho, ← hrl, ← htl]
          rw [if_neg (by omega), ha]
          simp only [hn, if_false]
          rfl
        · rw [if_neg hn] at g
          injection g with g
          intro x hx
          simp only [List.mem_ofFn, Set.mem_range] at hx
          obtain ⟨j, rfl⟩ := hx
          rw [g]
          obtain ⟨b, hb, _, hb0, hb1⟩ := g2 j
          exact ⟨b, hb, hb0, hb1⟩

/-- **C25, birth probabilities** With finite-or-infinite costs and at most 30 targets in each
cluster, every `rB` after `correct` is a number in [0,1] – so the bound on the sum of the
probabilities in `C25_births` applies. -/
theorem C25_rB_range {E : Env P R O} (hbox : BoxOk E) (prm : Params) {s : St P}
    (hs : Inv E s) (S : Sensor P R) (ch : Choices)
    (scan : List (Rep R)) (dflt : Rep R) (hok : CallOk E (.correct S ch scan dflt))
    (hk : CallCosts (.correct S ch scan dflt)) (hwt : ch.wt = ew)
    (hcl : ∀ cls s1 rcid, prepare E S scan s = some (cls, s1, rcid) →
      ∀ c ∈ cls, c.targets.length ≤ 30) :
    ∃ F s' reps, (∀ fuel, F ≤ fuel → correct E S prm ch fuel scan dflt s = some (s', reps)) ∧
      ∀ j < scan.length, ∃ b, (reps j).rB = some b ∧ 0 ≤ b ∧ b ≤ 1 := by
  obtain ⟨hf, hch, hz⟩ := hok
  obtain ⟨F0, ⟨s', reps⟩, h0⟩ := correct_total hbox hf hk.1 prm hch hk.2 hz dflt hs hcl
  obtain ⟨cls, s1, rcid, p1, p2, p3, p4, p5, p6, _⟩ := prepare_ok hbox hf hz hs.ok
  refine ⟨F0, s', reps, h0, fun j hj => ?_⟩
  obtain ⟨c, hcm, hjc⟩ := List.mem_flatMap.1 (p6.mem_iff.2 (List.mem_range.2 hj))
  obtain ⟨ts, hts⟩ := readAll_some (h := s1.heap) (l := c.targets)
    (fun a ha => (p3.live a).2 (p2.tin c hcm a ha))
  have hlen : ts.length ≤ 30 := by
    have h1 := hcl cls s1 rcid p1 c hcm
    rwa [← (readAll_spec hts).1, List.length_map] at h1
  obtain ⟨F1, h1⟩ := compute_rB (E := E) hk.1 prm hk.2 ts
    (c.reports.map fun j => (initReps scan rcid dflt j).val) hlen
  obtain ⟨v, hv, hrange⟩ := h1 (max F0 F1) (le_max_right _ _)
  obtain ⟨i, hi⟩ := List.mem_iff_getElem?.1 hcm
  obtain ⟨f1, _⟩ := find_reports p2.rnd hi hjc
  have hcv : compOf E S prm ch.pick (max F0 F1) ch.wt s1.heap (initReps scan rcid dflt) c = some v := by
    simp only [compOf, hts, hwt]; exact hv
  obtain ⟨_, l2, l3, _⟩ := compOf_length hcv
  obtain ⟨k, w, b, k1, k2, k3, k4⟩ := writeReps_mem (reps := initReps scan rcid dflt)
    ((List.nodup_flatMap.1 p2.rnd).1 c hcm) l2 l3 hjc
  obtain ⟨cls', s1', rcid', new, d1, _⟩ := correct_origin hbox hf hch hz hs
    (h0 (max F0 F1) (le_max_left _ _))
  rw [d1.prep, Option.some.injEq, Prod.mk.injEq, Prod.mk.injEq] at p1
  obtain ⟨rfl, rfl, rfl⟩ := p1
  obtain ⟨x, hx, hx'⟩ := hrange b (List.mem_of_getElem? k3)
  refine ⟨x, ?_, hx'⟩
  rw [d1.rep]
  unfold finalReps
  rw [f1]
  simp only [hcv, k4, hx]

example : ∃ F s' reps, (∀ fuel, F ≤ fuel →
      correct exE exS exPrm exCh fuel exScan ⟨0, none, 0⟩ St.empty = some (s', reps)) ∧
    ∀ j < 3, ∃ b, (reps j).rB = some b ∧ 0 ≤ b ∧ b ≤ 1 :=
  C25_rB_range exE_box exPrm (Inv.empty _) exS exCh exScan _ exOk ⟨exS_costs, exCh_pick⟩ rfl (by
    intro cls s1 rcid e c hc
    obtain ⟨cls', s1', rcid', p1, p2, p3, p4, _⟩ := prepare_ok exE_box exS_fov
      (fun z _ => exE_rbox z.val) (Inv.empty exE).ok (scan := exScan)
    rw [e, Option.some.injEq, Prod.mk.injEq, Prod.mk.injEq] at p1
    obtain ⟨rfl, rfl, rfl⟩ := p1
    have : c.targets = [] := by
      rw [List.eq_nil_iff_forall_not_mem]
      intro a ha
      have := p2.tin c hc a ha
      rw [p4] at this
      simp [St.empty] at this
    simp [this])

example : ∃ (F : Nat) (s' : St ℚ) (reps : Nat → Rep ℚ) (idx : List Nat),
    correct exE exS exPrm exCh F exScan ⟨0, none, 0⟩ St.empty = some (s', reps) ∧
    idx.Nodup ∧ s'.targets.length = idx.length := by
  obtain ⟨F, s1, s, reps, h1, h2⟩ := exCorrect
  have h3 : run exE exPrm F [] St.empty = some (St.empty : St ℚ) := rfl
  have h4 : ∃ s0 r0, correct exE exS exPrm exCh F exScan ⟨0, none, 0⟩ (St.empty : St ℚ) =
      some (s0, r0) := by
    have : run exE exPrm F (exCalls.take 1 ++ [.predict exM id]) St.empty = some s1 := h1
    rw [run_append, Option.bind_eq_some_iff] at this
    obtain ⟨x, hx, _⟩ := this
    simp only [exCalls, List.take_succ_cons, List.take_zero, run, step] at hx
    cases hc : correct exE exS exPrm exCh F exScan ⟨0, none, 0⟩ (St.empty : St ℚ) with
    | none => simp [hc] at hx
    | some y => exact ⟨y.1, y.2, rfl⟩
  obtain ⟨s0, r0, h4⟩ := h4
  obtain ⟨old, new, idx, x, q1, q2, q3, _, q4, _⟩ := C25_births exE_box exPrm F [] (by simp) St.empty
    h3 exS exCh exScan _ exOk s0 r0 h4
  refine ⟨F, s0, r0, idx, h4, q4, ?_⟩
  have : old = [] := by simpa [St.empty] using q2
  rw [q1, this, List.nil_append, q3]

end Verif.Tracker
