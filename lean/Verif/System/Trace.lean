import Verif.System.Step
import Verif.System.Props
import Verif.Tracker.Props4
import Verif.Kalman.Follow
import Verif.System.Track

/-!
# C113: every component is the filter of one sequence of reports

Mixtures are joined, cut off, normalized and moved between frames at every scan.  Whatever the history of
the tracker was, each component of each target started from the report its target was born from, made
every prediction since, and took at most one report of each scan since.
-/

namespace Verif.Tracker

open Verif.Cluster (Cl)
open Verif.Hyp Verif.Lap Verif.Murty

variable {P R O : Type}

/-- What a scan can do with the density `p` of the target at address `a`, `cluster.hpp:56-136`,
`target.hpp:123-170`: move it to a frame and back, or join in this frame the alternatives of the reports `rs`
and of a missed detection. -/
def Touched (E : Env P R O) (S : Sensor P R) (a : Nat) (rs : List R) (p q : P) : Prop :=
  ∃ o, q = E.toGlobal (E.toLocal o p) ∨
    ∃ w : List ℝ, w.length = rs.length + 1 ∧ (∀ x ∈ w, 0 ≤ x) ∧
      q = E.toGlobal (E.join (E.toLocal o p) w
        (rs.map (fun z => S.upd a (E.toLocal o p) (E.rLocal o z)) ++ [S.missPdf a (E.toLocal o p)]))

theorem compute_touched {E : Env P R O} {S : Sensor P R} {prm : Params}
    {pick : ∀ r c, List (Node r c) → Nat} {fuel : Nat} {wt : ℚ → ℝ} (hwt : ∀ q, 0 ≤ wt q)
    {ts : List (Nat × Tgt P)} {rs : List R} {v : Comp P R}
    (e : compute E S prm pick fuel wt ts rs = some v) {i : Nat} {u : Tgt P} (hi : v.ts[i]? = some u) :
    ∃ x, ts[i]? = some x ∧ Touched E S x.1 rs x.2.pdf u.pdf := by
  unfold compute at e
  simp only at e
  set o := E.center (rs.map E.rpos ++ ts.map fun t => E.pos t.2.pdf) with ho
  split at e
  · injection e with e
    subst e
    simp at hi
  · split at e
    · cases e
    · rename_i a ha
      have hb := hypotheses_bnd hwt ha
      split at e
      · injection e with e
        subst e
        simp only [List.map_map, List.getElem?_map, Option.map_eq_some_iff] at hi
        obtain ⟨x, hx, rfl⟩ := hi
        exact ⟨x, hx, o, Or.inl rfl⟩
      · injection e with e
        subst e
        rw [List.getElem?_eq_some_iff] at hi
        obtain ⟨hlt, rfl⟩ := hi
        have hlt' : i < ts.length := by simpa using hlt
        refine ⟨ts[i], List.getElem?_eq_getElem hlt', o, ?_⟩
        rw [List.getElem_ofFn]
        simp only [back, corrected]
        have hg : ∀ h : i < (ts.map fun t => (t.1, forth E o t.2)).length,
            (ts.map fun t => (t.1, forth E o t.2)).get ⟨i, h⟩ = (ts[i].1, forth E o ts[i].2) := by
          intro h
          simp
        rw [hg]
        split
        · right
          refine ⟨_, ?_, ?_, by rw [List.map_map]; rfl⟩
          · simp
          · intro x hx
            simp only [List.mem_ofFn, Set.mem_range] at hx
            obtain ⟨j, rfl⟩ := hx
            exact (hb.row _ j).1
        · exact Or.inl rfl

/-- Where the density of a target comes from that is alive after a scan: the target was not reached and is
unchanged, or its cluster has computed the density from the old one and from reports of the scan, or the
target is newborn, from one report of the scan. -/
theorem correct_touched {E : Env P R O} (hbox : BoxOk E) {prm : Params} {fuel : Nat}
    {calls : List (Call P R)} (hc : ∀ d ∈ calls, CallOk E d) {s : St P}
    (e : run E prm fuel calls St.empty = some s) {S : Sensor P R} {ch : Choices}
    {scan : List (Rep R)} {dflt : Rep R} (hok : CallOk E (.correct S ch scan dflt))
    (hwt : ∀ q, 0 ≤ ch.wt q) {s' : St P} {reps : Nat → Rep R}
    (e' : correct E S prm ch fuel scan dflt s = some (s', reps)) {a : Nat} {u : Tgt P}
    (hu : s'.heap a = some u) :
    s.heap a = some u ∨
    (∃ t rs, s.heap a = some t ∧ u.id = t.id ∧ (∀ z ∈ rs, ∃ y ∈ scan, z = y.val) ∧
      Touched E S a rs t.pdf u.pdf) ∨
    ∃ y ∈ scan, ∃ o, u.pdf = S.init (E.rGlobal o (E.rLocal o y.val)) := by
  have hs := run_inv hbox (Inv.empty E) hc e
  have hok' := hok
  obtain ⟨hf, hch, hz⟩ := hok
  obtain ⟨cls, s1, rcid, new, h1, h2, h3, h4⟩ := correct_origin hbox hf hch hz hs e'
  obtain ⟨cls', s1', rcid', p1, p2, p3, p4, p5, p6, p7, p8, p9, p10⟩ := prepare_ok hbox hf hz hs.ok
  rw [h1.prep, Option.some.injEq, Prod.mk.injEq, Prod.mk.injEq] at p1
  obtain ⟨rfl, rfl, rfl⟩ := p1
  by_cases hn : a ∈ new
  · right; right
    obtain ⟨k, hk⟩ := List.mem_iff_getElem?.1 hn
    obtain ⟨j, x, hjx, hh⟩ := h1.new_born hk
    have hj := (births_mem hch.ord p6 (List.mem_of_getElem? hjx)).1
    obtain ⟨o, ho⟩ := C58_reports_kept hbox prm fuel calls hc s e S ch scan dflt hok' s' reps e' j scan[j]
      (List.getElem?_eq_getElem hj)
    rw [hu] at hh
    obtain rfl := Option.some.inj hh
    exact ⟨scan[j], List.getElem_mem hj, o, congrArg S.init ho⟩
  · by_cases hgt : Gated E S scan s a
    · right; left
      obtain ⟨hv, t, c, v, k, ht, hid, hcm, hkc, hcv, hk⟩ := h4 a hn hgt u hu
      unfold compOf at hcv
      cases hr : readAll s1.heap c.targets with
      | none => simp [hr] at hcv
      | some ts =>
        simp only [hr] at hcv
        obtain ⟨x, hx, htch⟩ := compute_touched hwt hcv hk
        have hxs := readAll_spec hr
        have hx1 := hxs.2 x (List.mem_of_getElem? hx)
        have hxa : x.1 = a := by
          have := congrArg (fun l => l[k]?) hxs.1
          simp only [List.getElem?_map, hx, Option.map_some, hkc, Option.some.injEq] at this
          exact this
        obtain ⟨t0, q1, q2, q3, q4, _⟩ := p10 _ _ hx1
        rw [hxa, ht] at q1
        obtain rfl := Option.some.inj q1
        refine ⟨t, _, ht, hid, ?_, by rw [← hxa, ← q4]; exact htch⟩
        intro z hz'
        obtain ⟨j, hj, rfl⟩ := List.mem_map.1 hz'
        have hjlt : j < scan.length := by
          have := p6.mem_iff.1 (List.mem_flatMap.2 ⟨c, hcm, hj⟩)
          simpa using this
        refine ⟨scan[j], List.getElem_mem hjlt, ?_⟩
        simp [initReps, List.getD_eq_getElem?_getD, hjlt]
    · left
      rw [h3 a hn hgt] at hu
      exact hu

end Verif.Tracker

namespace Verif.System

open Verif.Tracker Matrix
open Verif.Kalman (Gauss Report)
open Verif.GM (SortOk)

/-- A component is taken to the frame at `o`, changed there by `f`, and taken back, `gm.hpp:290-309`,
`gaussian.hpp:158-164`. -/
noncomputable def frame (o : LL) (f : Gauss 4 → Gauss 4) (g : GX) : GX :=
  let h := f ⟨setHead (CF.ll2ne (head g.1) o) g.1, g.2, 1⟩
  (setHead (CF.ne2ll (head h.x) o) h.x, h.P)

/-- What the calls since the birth of a target, the newest first, can make of a component that was `g0` at
birth: a prediction moves it in a frame; a scan leaves it, takes it to a frame and back, or updates it in this frame with
one report of the scan. -/
inductive Since (k : Opts) (g0 : GX) : List (Call Pdf Rpt) → GX → Prop where
  | birth : Since k g0 [] g0
  | cv {l : List (Call Pdf Rpt)} {g : GX} (pS q dT : ℝ) (ord : List Nat → List Nat) (o : LL) :
      Since k g0 l g → Since k g0 (.predict (cv pS q dT) ord :: l)
        (frame o (Kalman.linearUpdate (Kalman.cvF dT) (Kalman.cvQ q dT)) g)
  | nm {l : List (Call Pdf Rpt)} {g : GX} (pS : ℝ) (Q : Matrix (Fin 4) (Fin 4) ℝ)
      (ord : List Nat → List Nat) (o : LL) : Since k g0 l g →
      Since k g0 (.predict (nm pS Q) ord :: l) (frame o (Kalman.linearUpdate 1 Q) g)
  | away {l : List (Call Pdf Rpt)} {g : GX} (S : Sensor Pdf Rpt) (ch : Choices) (scan : List (Rep Rpt))
      (d : Rep Rpt) : Since k g0 l g → Since k g0 (.correct S ch scan d :: l) g
  | missed {l : List (Call Pdf Rpt)} {g : GX} (S : Sensor Pdf Rpt) (ch : Choices) (scan : List (Rep Rpt))
      (d : Rep Rpt) (o : LL) : Since k g0 l g → Since k g0 (.correct S ch scan d :: l) (frame o id g)
  | seen {l : List (Call Pdf Rpt)} {g : GX} (S : Sensor Pdf Rpt) (ch : Choices) (scan : List (Rep Rpt))
      (d : Rep Rpt) (o : LL) (z : Rep Rpt) : z ∈ scan → Since k g0 l g →
      Since k g0 (.correct S ch scan d :: l)
        (frame o (Kalman.correct Kalman.posH 1 (rLocal o z.val).1) g)

theorem normalize_mem {m : GM.Mix GX ℝ} {g : Cmp} (h : g ∈ (GM.normalize m).c) :
    ∃ g0 ∈ m.c, g.x = g0.x := by
  unfold GM.normalize at h
  split at h
  · obtain ⟨g0, h0, rfl⟩ := List.mem_map.1 h
    exact ⟨g0, h0, rfl⟩
  · simp [GM.clear] at h

theorem join_mem {k : Opts} (hs : SortOk k.srt) {p : Pdf} {w : List ℝ} {ps : List Pdf}
    (hlen : w.length = ps.length) (hw : ∀ x ∈ w, 0 ≤ x) {g : Cmp}
    (h : g ∈ (joinPdf k p w ps).mix.c) : ∃ q ∈ ps, ∃ g0 ∈ q.mix.c, g.x = g0.x := by
  obtain ⟨m, kept, dropped, h1, h2, h3, h4, h5, h6, h7, h8⟩ := GM.C38_join k.srt hs k.lim k.mx w
    (ps.map fun q => q.mix.c) (by simpa using hlen) hw
  unfold joinPdf at h
  rw [h1] at h
  simp only at h
  by_cases hbig : 1 / 100000000 < (kept.map GM.Cmp.w).sum
  · obtain ⟨e1, _⟩ := h7 hbig
    rw [e1] at h
    obtain ⟨g1, hg1, rfl⟩ := List.mem_map.1 h
    have := (h2.mem_iff (a := g1)).1 (List.mem_append_left _ hg1)
    rw [List.mem_flatMap] at this
    obtain ⟨y, hy, hgy⟩ := this
    obtain ⟨g0, h0, rfl⟩ := List.mem_map.1 hgy
    obtain ⟨q, hq, hqc⟩ := List.mem_map.1 (List.of_mem_zip (a := y.1) (b := y.2) hy).2
    rw [← hqc] at h0
    exact ⟨q, hq, g0, h0, rfl⟩
  · rw [(h8 (not_lt.1 hbig)).1] at h
    cases h

theorem touched_comp {k : Opts} (hs : SortOk k.srt) {sn : PSens} {a : Nat} {rs : List Rpt} {p q : Pdf}
    (h : Touched (env k) (sensor k sn) a rs p q) {g : Cmp} (hg : g ∈ q.mix.c) :
    ∃ g0 ∈ p.mix.c, ∃ o, g.x = frame o id g0.x ∨
      ∃ z ∈ rs, g.x = frame o (Kalman.correct Kalman.posH 1 (rLocal o z).1) g0.x := by
  obtain ⟨o, rfl | ⟨w, hlen, hw, rfl⟩⟩ := h
  · obtain ⟨g1, h1, rfl⟩ := List.mem_map.1 hg
    obtain ⟨g0, h0, rfl⟩ := List.mem_map.1 h1
    exact ⟨g0, h0, o, Or.inl rfl⟩
  · obtain ⟨g1, h1, rfl⟩ := List.mem_map.1 hg
    have ho : ((env k).join ((env k).toLocal o p) w
        (rs.map (fun z => (sensor k sn).upd a ((env k).toLocal o p) ((env k).rLocal o z)) ++
          [(sensor k sn).missPdf a ((env k).toLocal o p)])).origin = o := by
      change (joinPdf k _ _ _).origin = o
      unfold joinPdf
      split <;> rfl
    rw [ho]
    obtain ⟨r, hr, g2, h2, hx⟩ := join_mem hs (by simpa using hlen) hw h1
    rcases List.mem_append.1 hr with hr | hr
    · obtain ⟨z, hz, rfl⟩ := List.mem_map.1 hr
      obtain ⟨g3, h3, hx3⟩ := normalize_mem h2
      simp only [List.mem_mapIdx] at h3
      obtain ⟨i, hi, rfl⟩ := h3
      have h4 := List.getElem_mem hi
      obtain ⟨g0, h0, he⟩ := List.mem_map.1 h4
      refine ⟨g0, h0, o, Or.inr ⟨z, hz, ?_⟩⟩
      simp only [hx, hx3, ← he]
      rfl
    · rw [List.mem_singleton] at hr
      subst hr
      obtain ⟨g0, h0, rfl⟩ := List.mem_map.1 h2
      refine ⟨g0, h0, o, Or.inl ?_⟩
      simp only [hx]
      rfl

/-- The component of a target that is born from the report `z`, `sensors.hpp:66-76`, `lmb.hpp:449-475`; the
report has been in the frame at `o` and back (`cluster.hpp:184-222`). -/
noncomputable def born (pv : Matrix (Fin 2) (Fin 2) ℝ) (o o' : LL) (z : Rpt) : GX :=
  frame o' id ((Kalman.init1 pv (rGlobal o (rLocal o z)).1).x, (Kalman.init1 pv z.1).P)

/-- C113: in every state after any history, all components of a target started from the one report of the one
scan the target was born from, made every prediction since, and took at most one report of each scan since. -/
theorem C113_trace {k : Opts} (hk : OptsOk k) {prm : Params} {fuel : Nat} :
    ∀ {calls : List (Call Pdf Rpt)}, (∀ c ∈ calls, SysCall k prm c) → ∀ {s : St Pdf},
    run (env k) prm fuel calls St.empty = some s → ∀ {a : Nat} {t : Tgt Pdf}, s.heap a = some t →
    ∃ pre sn ch scan d post, calls = pre ++ .correct (sensor k sn) ch scan d :: post ∧ SensOk sn ∧
      ∃ z ∈ scan, ∃ o o', ∀ g ∈ t.pdf.mix.c, Since k (born sn.pv o o' z.val) post.reverse g.x := by
  intro calls
  induction calls using List.reverseRecOn with
  | nil =>
    intro _ s e a t ht
    simp only [run, Option.some.injEq] at e
    subst e
    simp [St.empty] at ht
  | append_singleton l c ih =>
    intro hc s e a t ht
    have hcl : ∀ d ∈ l, SysCall k prm d := fun d hd => hc d (by simp [hd])
    have hcc := hc c (by simp)
    rw [run_append] at e
    cases h1 : run (env k) prm fuel l St.empty with
    | none => simp [h1] at e
    | some s1 =>
      simp only [h1] at e
      have e2 : step (env k) prm fuel s1 c = some s := by
        simp only [Option.bind_some, run] at e
        cases h2 : step (env k) prm fuel s1 c with
        | none => simp [h2] at e
        | some s2 => simpa [h2] using e
      have old : ∀ {t0 : Tgt Pdf}, s1.heap a = some t0 →
          (∀ {g0 : GX} {post : List (Call Pdf Rpt)}, (∀ g ∈ t0.pdf.mix.c, Since k g0 post.reverse g.x) →
            ∀ g ∈ t.pdf.mix.c, Since k g0 (c :: post.reverse) g.x) →
          ∃ pre sn ch scan d post, l ++ [c] = pre ++ .correct (sensor k sn) ch scan d :: post ∧ SensOk sn ∧
            ∃ z ∈ scan, ∃ o o', ∀ g ∈ t.pdf.mix.c, Since k (born sn.pv o o' z.val) post.reverse g.x := by
        intro t0 ht0 hstep
        obtain ⟨pre, sn, ch, scan, d, post, rfl, hsn, z, hz, o, o', h⟩ := ih hcl h1 ht0
        refine ⟨pre, sn, ch, scan, d, post ++ [c], by simp, hsn, z, hz, o, o', ?_⟩
        rw [List.reverse_append]
        exact hstep h
      cases c with
      | predict m ord =>
        obtain ⟨s', q1, q2, q3, q4, q5⟩ := predict_spec (env_box k) prm m (sysCall_ok hcc)
          (run_inv (env_box k) (Inv.empty _) (fun d hd => sysCall_ok (hcl d hd)) h1).ok
        simp only [step, q1, Option.some.injEq] at e2
        subst e2
        rw [q4, Option.filter_eq_some_iff, Option.map_eq_some_iff] at ht
        obtain ⟨⟨t0, ht0, rfl⟩, _⟩ := ht
        refine old ht0 ?_
        intro g0 post h g hg
        have move : ∀ {F Q : Matrix (Fin 4) (Fin 4) ℝ} {f : ℝ}, m = ⟨moveMix F Q, f⟩ →
            ∃ g1 ∈ t0.pdf.mix.c, ∃ o, g.x = frame o (Kalman.linearUpdate F Q) g1.x := by
          rintro F Q f rfl
          obtain ⟨g1, hg1, rfl⟩ := List.mem_map.1 hg
          obtain ⟨g2, hg2, hx2⟩ := normalize_mem hg1
          obtain ⟨g3, hg3, rfl⟩ := List.mem_map.1 hg2
          obtain ⟨g4, hg4, rfl⟩ := List.mem_map.1 hg3
          refine ⟨g4, hg4, pos t0.pdf, ?_⟩
          simp only [hx2]
          rfl
        obtain ⟨_, ⟨pS, q, dT, _, _, _, _, rfl⟩ | ⟨pS, Q, _, _, _, rfl⟩⟩ := hcc
        · obtain ⟨g1, hg1, o, he⟩ := move rfl
          rw [he]
          exact Since.cv pS q dT ord o (h g1 hg1)
        · obtain ⟨g1, hg1, o, he⟩ := move rfl
          rw [he]
          exact Since.nm pS Q ord o (h g1 hg1)
      | correct S ch scan d =>
        simp only [step, Option.map_eq_some_iff] at e2
        obtain ⟨⟨s2, reps⟩, e2, rfl⟩ := e2
        have hok := sysCall_ok hcc
        obtain ⟨⟨sn, hsn, rfl⟩, hch, hpk, hwt, _⟩ := hcc
        rcases correct_touched (env_box k) (fun d hd => sysCall_ok (hcl d hd)) h1 hok hwt e2 ht with
          h | ⟨t0, rs, ht0, _, hrs, htch⟩ | ⟨y, hy, o, hp⟩
        · exact old h fun hh g hg => Since.away _ ch scan d (hh g hg)
        · refine old ht0 ?_
          intro g0 post h g hg
          obtain ⟨g1, hg1, o, he | ⟨z, hz, he⟩⟩ := touched_comp hk.srt htch hg
          · rw [he]
            exact Since.missed _ ch scan d o (h g1 hg1)
          · obtain ⟨y, hy, rfl⟩ := hrs z hz
            rw [he]
            exact Since.seen _ ch scan d o y hy (h g1 hg1)
        · have : ∃ o', ∀ g ∈ t.pdf.mix.c, g.x = born sn.pv o o' y.val := by
            rw [hp]
            change ∃ o', ∀ g ∈ (initPdf k sn.pv (rGlobal o (rLocal o y.val))).mix.c, _
            refine ⟨pos ⟨⟨[ofG (Kalman.init1 sn.pv (rGlobal o (rLocal o y.val)).1)], 0⟩, 0, Box.zero⟩, ?_⟩
            intro g hg
            obtain ⟨g1, h1, rfl⟩ := List.mem_map.1 hg
            obtain ⟨g0, h0, rfl⟩ := List.mem_map.1 h1
            rw [List.mem_singleton] at h0
            subst h0
            rfl
          obtain ⟨o', ho'⟩ := this
          refine ⟨l, sn, ch, scan, d, [], rfl, hsn, y, hy, o, o', ?_⟩
          intro g hg
          rw [ho' g hg]
          exact Since.birth

/-! ## The covariance -/

theorem frame_cov (o : LL) (f : Gauss 4 → Gauss 4) (g : GX) :
    (frame o f g).2 = (f ⟨setHead (CF.ll2ne (head g.1) o) g.1, g.2, 1⟩).P := rfl

theorem correct_cov {z z' : Report 2} (hz : z.P = z'.P) {a b : Gauss 4} (h : a.P = b.P) (x y : ℝ) :
    (Kalman.correct Kalman.posH x z a).P = (Kalman.correct Kalman.posH y z' b).P := by
  simp only [Kalman.correct, Kalman.gain, Kalman.dinv, hz, h]

theorem moveMix_inj {F Q F' Q' : Matrix (Fin 4) (Fin 4) ℝ} (h : moveMix F Q = moveMix F' Q') :
    F = F' ∧ Q = Q' := by
  have key : ∀ x : Fin 4 → ℝ, F *ᵥ x = F' *ᵥ x ∧ Q = Q' := by
    intro x
    have := congrArg (fun p : Pdf => p.mix.c.map (·.x))
      (congrFun h ⟨⟨[ofG ⟨x, 0, 0⟩], 0⟩, 0, Box.zero⟩)
    simpa [moveMix, ofG, toG, Kalman.linearUpdate] using this
  refine ⟨?_, (key 0).2⟩
  ext i j
  have := congrFun (key (Pi.single j 1)).1 i
  simpa using this

/-- What a call can mean for a component: a prediction moves it on; a scan shows it one of its reports, or only
changes its weight. -/
def Means (q : ℝ) : Call Pdf Rpt → Kalman.Ev → Prop
  | .predict m _, .pred dT => ∃ pS, m = cv pS q dT
  | .correct _ _ scan _, .see _ y => ∃ z ∈ scan, y.P = z.val.1.P
  | .correct _ _ _ _, .weigh _ => True
  | _, _ => False

/-- Predictions by the constant-velocity model with the noise `q` that take the time `T` in sum, and any
scans. -/
inductive Takes (q : ℝ) : List (Call Pdf Rpt) → ℝ → Prop where
  | nil : Takes q [] 0
  | predict {l : List (Call Pdf Rpt)} {T : ℝ} (pS dT : ℝ) (ord : List Nat → List Nat) : 0 ≤ dT →
      Takes q l T → Takes q (.predict (cv pS q dT) ord :: l) (dT + T)
  | correct {l : List (Call Pdf Rpt)} {T : ℝ} (S : Sensor Pdf Rpt) (ch : Choices) (scan : List (Rep Rpt))
      (d : Rep Rpt) : Takes q l T → Takes q (.correct S ch scan d :: l) T

theorem Takes.append {q : ℝ} {l l' : List (Call Pdf Rpt)} {T T' : ℝ} (h : Takes q l T)
    (h' : Takes q l' T') : Takes q (l ++ l') (T + T') := by
  induction h with
  | nil => simpa using h'
  | predict pS dT ord hd _ ih => rw [add_assoc]; exact .predict pS dT ord hd ih
  | correct S ch scan d _ ih => exact .correct S ch scan d ih

theorem Takes.reverse {q : ℝ} {l : List (Call Pdf Rpt)} {T : ℝ} (h : Takes q l T) :
    Takes q l.reverse T := by
  induction h with
  | nil => exact .nil
  | predict pS dT ord hd _ ih =>
    rw [List.reverse_cons, add_comm]
    have := ih.append (.predict pS dT ord hd .nil)
    rwa [add_zero] at this
  | correct S ch scan d _ ih =>
    rw [List.reverse_cons]
    have := ih.append (.correct S ch scan d .nil)
    rwa [add_zero] at this

theorem Takes.nonneg {q : ℝ} {l : List (Call Pdf Rpt)} {T : ℝ} (h : Takes q l T) : 0 ≤ T := by
  induction h with
  | nil => exact le_rfl
  | predict pS dT ord hd _ ih => exact add_nonneg hd ih
  | correct S ch scan d _ ih => exact ih

/-- A prediction does the same to the covariance in every frame. -/
theorem since_predict {k : Opts} {g0 g : GX} {m : Motion Pdf} {ord : List Nat → List Nat}
    {l : List (Call Pdf Rpt)} (h : Since k g0 (.predict m ord :: l) g) {pS q dT : ℝ}
    (hm : m = cv pS q dT) : ∃ g', Since k g0 l g' ∧
      g.2 = Kalman.cvF dT * g'.2 * (Kalman.cvF dT)ᵀ + Kalman.cvQ q dT := by
  subst hm
  generalize hc : Call.predict (cv pS q dT) ord = c at h
  cases h with
  | @cv _ g' pS' q' dT' ord' o hs =>
    injection hc with hm _
    obtain ⟨hF, hQ⟩ := moveMix_inj (congrArg Motion.pdf hm)
    exact ⟨g', hs, by rw [hF, hQ]; rfl⟩
  | @nm _ g' pS' Q ord' o hs =>
    injection hc with hm _
    obtain ⟨hF, hQ⟩ := moveMix_inj (congrArg Motion.pdf hm)
    exact ⟨g', hs, by rw [hF, hQ]; rfl⟩
  | away => cases hc
  | missed => cases hc
  | seen => cases hc

/-- C113: the covariance of a component is what the Kalman filter makes of the covariance at birth, with the
time steps of the predictions and with at most one report of each scan. -/
theorem C113_filter {k : Opts} {q : ℝ} {l : List (Call Pdf Rpt)} {T : ℝ} (hT : Takes q l T) :
    ∀ {g0 g : GX}, Since k g0 l g → ∃ evs : List Kalman.Ev, List.Forall₂ (Means q) l.reverse evs ∧
      (∀ e ∈ evs, e.Ok) ∧ ∀ x w, g.2 = (evs.foldl (Kalman.Ev.run q) ⟨x, g0.2, w⟩).P := by
  have snoc : ∀ {l : List (Call Pdf Rpt)} {c : Call Pdf Rpt} {evs : List Kalman.Ev} {e : Kalman.Ev},
      List.Forall₂ (Means q) l.reverse evs → Means q c e →
      List.Forall₂ (Means q) (c :: l).reverse (evs ++ [e]) := by
    intro l c evs e h1 h2
    rw [List.reverse_cons]
    exact List.rel_append h1 (.cons h2 .nil)
  have oks : ∀ {evs : List Kalman.Ev} {e : Kalman.Ev}, (∀ e ∈ evs, e.Ok) → e.Ok →
      ∀ e' ∈ evs ++ [e], e'.Ok := by
    intro evs e h1 h2 e' he
    rcases List.mem_append.1 he with he | he
    · exact h1 e' he
    · rw [List.mem_singleton.1 he]
      exact h2
  induction hT with
  | nil =>
    intro g0 g h
    cases h
    exact ⟨[], .nil, by simp, fun _ _ => rfl⟩
  | predict pS dT ord hd _ ih =>
    intro g0 g h
    obtain ⟨g', hs, hg⟩ := since_predict h rfl
    obtain ⟨evs, h1, h2, h3⟩ := ih hs
    refine ⟨evs ++ [.pred dT], snoc (e := .pred dT) h1 (by exact ⟨pS, rfl⟩), oks (e := .pred dT) h2 hd, fun x w => ?_⟩
    rw [List.foldl_append, hg, h3 x w]
    rfl
  | correct S ch scan d _ ih =>
    intro g0 g h
    cases h with
    | away _ _ _ _ hs =>
      obtain ⟨evs, h1, h2, h3⟩ := ih hs
      exact ⟨evs ++ [.weigh 1], snoc (e := .weigh 1) h1 (by trivial), oks (e := .weigh 1) h2 trivial, fun x w => by
        rw [List.foldl_append, h3 x w]
        rfl⟩
    | missed _ _ _ _ o hs =>
      obtain ⟨evs, h1, h2, h3⟩ := ih hs
      exact ⟨evs ++ [.weigh 1], snoc (e := .weigh 1) h1 (by trivial), oks (e := .weigh 1) h2 trivial, fun x w => by
        rw [List.foldl_append, frame_cov]
        exact h3 x w⟩
    | seen _ _ _ _ o z hz hs =>
      obtain ⟨evs, h1, h2, h3⟩ := ih hs
      exact ⟨evs ++ [.see 1 z.val.1], snoc (e := .see 1 z.val.1) h1 (by exact ⟨z, hz, rfl⟩),
        oks (e := .see 1 z.val.1) h2 z.val.2.1, fun x w => by
        rw [List.foldl_append, frame_cov]
        exact correct_cov rfl (h3 x w) 1 1⟩

/-- Reports only make a component more certain. -/
theorem since_le {k : Opts} {q : ℝ} (hq : 0 ≤ q) {l : List (Call Pdf Rpt)} {T : ℝ}
    (hT : Takes q l T) : ∀ {g0 g : GX}, g0.2.PosDef → Since k g0 l g → g.2.PosDef ∧
      ∀ a, a ⬝ᵥ g.2 *ᵥ a ≤ a ⬝ᵥ (Kalman.cvF T * g0.2 * (Kalman.cvF T)ᵀ + Kalman.cvQ q T) *ᵥ a := by
  induction hT with
  | nil =>
    intro g0 g h0 h
    cases h
    exact ⟨h0, fun a => by simp [Kalman.cvF_zero, Kalman.cvQ_zero]⟩
  | @predict l T pS dT ord hd _ ih =>
    intro g0 g h0 h
    obtain ⟨g', hs, hg⟩ := since_predict h rfl
    obtain ⟨i1, i2⟩ := ih h0 hs
    refine ⟨?_, fun a => ?_⟩
    · rw [hg]
      exact Kalman.pred_posDef hq hd i1
    · rw [hg, Kalman.quad_pred]
      have := i2 ((Kalman.cvF dT)ᵀ *ᵥ a)
      have e : Kalman.cvF (dT + T) * g0.2 * (Kalman.cvF (dT + T))ᵀ + Kalman.cvQ q (dT + T) =
          Kalman.cvF dT * (Kalman.cvF T * g0.2 * (Kalman.cvF T)ᵀ + Kalman.cvQ q T) *
            (Kalman.cvF dT)ᵀ + Kalman.cvQ q dT := by
        rw [add_comm dT T, ← Kalman.cvQ_add, ← Kalman.cvF_mul, Matrix.transpose_mul]
        noncomm_ring
      rw [e, Kalman.quad_pred]
      linarith
  | correct S ch scan d _ ih =>
    intro g0 g h0 h
    cases h with
    | away _ _ _ _ hs => exact ih h0 hs
    | missed _ _ _ _ o hs =>
      obtain ⟨i1, i2⟩ := ih h0 hs
      exact ⟨i1, i2⟩
    | @seen _ g' _ _ _ _ o z hz hs =>
      obtain ⟨i1, i2⟩ := ih h0 hs
      set f : Gauss 4 := ⟨setHead (CF.ll2ne (head g'.1) o) g'.1, g'.2, 1⟩ with hf
      refine ⟨Kalman.correct_posDef Kalman.posH (rLocal o z.val).1 f z.val.2.1 i1 1, fun a => ?_⟩
      have := (Kalman.C42_update Kalman.posH (rLocal o z.val).1 f 1 z.val.2.1
        i1.posSemidef).2.2.1.dotProduct_mulVec_nonneg a
      rw [star_trivial, Matrix.sub_mulVec, dotProduct_sub] at this
      rw [frame_cov]
      have h2 := i2 a
      change 0 ≤ a ⬝ᵥ g'.2 *ᵥ a - _ at this
      linarith

theorem init1_quad (pv : Matrix (Fin 2) (Fin 2) ℝ) (z : Report 2) (p u : Fin 2 → ℝ) :
    Kalman.dir p u ⬝ᵥ (Kalman.init1 pv z).P *ᵥ Kalman.dir p u = p ⬝ᵥ z.P *ᵥ p + u ⬝ᵥ pv *ᵥ u := by
  simp [Kalman.init1, Kalman.dir, dotProduct, mulVec, Fin.sum_univ_four, Fin.sum_univ_two]
  ring

/-- C113: whatever has happened since its birth, each component of a target is at least as certain as the
prediction of its first report over the time since then. -/
theorem C113_certain {k : Opts} (hk : OptsOk k) {prm : Params} {fuel : Nat}
    {calls : List (Call Pdf Rpt)} (hc : ∀ c ∈ calls, SysCall k prm c) {s : St Pdf}
    (e : run (env k) prm fuel calls St.empty = some s) {a : Nat} {t : Tgt Pdf} (ht : s.heap a = some t) :
    ∃ pre sn ch scan d post, calls = pre ++ .correct (sensor k sn) ch scan d :: post ∧ ∃ z ∈ scan,
      ∀ q T, 0 ≤ q → Takes q post T → ∀ g ∈ t.pdf.mix.c, g.x.2.PosDef ∧ ∀ p u,
        Kalman.dir p u ⬝ᵥ g.x.2 *ᵥ Kalman.dir p u ≤
          p ⬝ᵥ z.val.1.P *ᵥ p + (u + T • p) ⬝ᵥ sn.pv *ᵥ (u + T • p) +
            q * (T * (u ⬝ᵥ u) + T ^ 2 * (p ⬝ᵥ u) + T ^ 3 / 3 * (p ⬝ᵥ p)) := by
  obtain ⟨pre, sn, ch, scan, d, post, rfl, hsn, z, hz, o, o', h⟩ := C113_trace hk hc e ht
  refine ⟨pre, sn, ch, scan, d, post, rfl, z, hz, ?_⟩
  intro q T hq hT g hg
  have hb : (born sn.pv o o' z.val).2 = (Kalman.init1 sn.pv z.val.1).P := rfl
  obtain ⟨h1, h2⟩ := since_le hq hT.reverse (by rw [hb]; exact Kalman.init1_posDef hsn.pv z.val.2.1)
    (h g hg)
  refine ⟨h1, fun p u => ?_⟩
  have := h2 (Kalman.dir p u)
  rwa [Kalman.quad_pred, Kalman.cvF_T, Kalman.dir_cvQ, hb, init1_quad] at this

/-! ## Concrete cases -/

/-- A target that is started by a report, waits, and is reported again. -/
example : ∃ (F : Nat) (s : St Pdf) (a : Nat) (u : Tgt Pdf) (q : LL), s.heap a = some u ∧
    ∃ pre sn ch scan d post, [exScan3 [exAt 0 1 one_pos], exRest,
      exScan3 [exAt q (1 / 10000) (by norm_num)]] = pre ++ .correct (sensor exOpts3 sn) ch scan d :: post ∧
      SensOk sn ∧ ∃ z ∈ scan, ∃ o o', ∀ g ∈ u.pdf.mix.c,
        Since exOpts3 (born sn.pv o o' z.val) post.reverse g.x := by
  obtain ⟨F, s, s', a, t, u, q, h1, h2, _, h4, _⟩ := exSteady
  refine ⟨F, s', a, u, q, h4, C113_trace (prm := exPrm) (fuel := F) exOpts3_ok ?_ (s := s') ?_ h4⟩
  · intro c hc
    simp only [List.mem_cons, List.not_mem_nil, or_false] at hc
    rcases hc with rfl | rfl | rfl
    · exact exScan3_ok _ (by simp)
    · exact exRest_ok
    · exact exScan3_ok _ (by simp)
  · have := run_append (E := env exOpts3) (prm := exPrm) (fuel := F) [exScan3 [exAt 0 1 one_pos]]
      [exRest, exScan3 [exAt q (1 / 10000) (by norm_num)]] St.empty
    rw [h1, Option.bind_some, h2] at this
    exact this

/-- Two time steps of constant velocity. -/
noncomputable def exDrift : Call Pdf Rpt := .predict (cv 1 1 2) id

theorem exDrift_ok : SysCall exOpts3 exPrm exDrift :=
  ⟨fun _ => List.Perm.refl _, Or.inl ⟨1, 1, 2, by norm_num, by norm_num, by norm_num, by norm_num, rfl⟩⟩

/-- The new target after a prediction over two time steps. -/
theorem exDrifted : ∃ (s : St Pdf) (a : Nat) (u : Tgt Pdf) (g : Cmp),
    run (env exOpts3) exPrm 0 [exScan3 [exAt 0 1 one_pos], exDrift] St.empty = some s ∧
    s.heap a = some u ∧ u.pdf.mix.c = [g] := by
  obtain ⟨s, a, t, g, h1, h2, h3, h4, h5, h6, h7, h8⟩ := exBorn3
  have hc1 : ∀ c ∈ [exScan3 [exAt 0 1 one_pos]], SysCall exOpts3 exPrm c := by
    intro c hc
    rw [List.mem_singleton] at hc
    subst hc
    exact exScan3_ok _ (by simp)
  have hs : (t.pdf.mix.c.map GM.Cmp.w).sum = 1 := by rw [h5]; simp [h6]
  obtain ⟨⟨f, e1⟩, e2⟩ := predict_comps (k := exOpts3) (m := cv 1 1 2) (F := Kalman.cvF 2)
    (Q := Kalman.cvQ 1 2) rfl hs
  rw [h5] at e1
  simp only [List.map_cons, List.map_nil] at e1
  have hcov : covNorm (predictTgt (env exOpts3) (cv 1 1 2) t).pdf ≤ 150 := by
    rw [single_norm e1 h6, h7]
    apply Real.sqrt_le_iff.2
    refine ⟨by norm_num, ?_⟩
    norm_num [Kalman.cvF, Kalman.cvQ, Matrix.mul_apply, Fin.sum_univ_four, Matrix.transpose_apply,
      Matrix.vecMul, dotProduct]
    have v2 : (![1, 0, 2, 0] : Fin 4 → ℝ) 2 = 2 ∧ (![1, 0, 2, 0] : Fin 4 → ℝ) 3 = 0 ∧
        (![0, 1, 0, 2] : Fin 4 → ℝ) 2 = 0 ∧ (![0, 1, 0, 2] : Fin 4 → ℝ) 3 = 2 := ⟨rfl, rfl, rfl, rfl⟩
    rw [v2.1, v2.2.1, v2.2.2.1, v2.2.2.2]
    norm_num
  obtain ⟨s2, hp, -⟩ := C28_predict (env_box exOpts3) exPrm 0 _ (fun c h => sysCall_ok (hc1 c h)) s h1
    (cv 1 1 2) (ord := id) exDrift_ok.1
  obtain ⟨i1, -, -⟩ := followed_predict exOpts3_ok (prm := exPrm)
    (by show (0 : ℝ) ≤ 4 / 5; norm_num) (by show (4 / 5 : ℝ) ≤ 1; norm_num) hc1 h1 h2 exDrift_ok
    (by rw [h4]; show (1 / 20 : ℝ) ≤ 4 / 5 * (1 : ℝ) ^ (2 : ℝ); norm_num) hcov hp
  refine ⟨s2, a, _, _, ?_, i1, e1⟩
  have := run_append (E := env exOpts3) (prm := exPrm) (fuel := 0) [exScan3 [exAt 0 1 one_pos]] [exDrift] St.empty
  rw [h1, Option.bind_some] at this
  rw [List.singleton_append] at this
  rw [this]
  simp only [run, step, exDrift, hp]

theorem exDrift_takes : Takes 1 [exDrift] 2 := by
  have := Takes.predict (q := 1) 1 2 id (by norm_num) .nil
  rwa [add_zero] at this

/-- It started from the only report there is; its position has a variance of at most `1 + 4 + 8/3` in each
direction. -/
example : ∃ (s : St Pdf) (a : Nat) (u : Tgt Pdf) (g : Cmp),
    run (env exOpts3) exPrm 0 [exScan3 [exAt 0 1 one_pos], exDrift] St.empty = some s ∧
    s.heap a = some u ∧ u.pdf.mix.c = [g] ∧
    ∃ pre sn ch scan d post, [exScan3 [exAt 0 1 one_pos], exDrift] =
      pre ++ .correct (sensor exOpts3 sn) ch scan d :: post ∧ ∃ z ∈ scan, ∀ q T, 0 ≤ q → Takes q post T →
      g.x.2.PosDef ∧ ∀ p u, Kalman.dir p u ⬝ᵥ g.x.2 *ᵥ Kalman.dir p u ≤
        p ⬝ᵥ z.val.1.P *ᵥ p + (u + T • p) ⬝ᵥ sn.pv *ᵥ (u + T • p) +
          q * (T * (u ⬝ᵥ u) + T ^ 2 * (p ⬝ᵥ u) + T ^ 3 / 3 * (p ⬝ᵥ p)) := by
  obtain ⟨s, a, u, g, h1, h2, h3⟩ := exDrifted
  obtain ⟨pre, sn, ch, scan, d, post, e, z, hz, h⟩ := C113_certain exOpts3_ok (by
    intro c hc
    simp only [List.mem_cons, List.not_mem_nil, or_false] at hc
    rcases hc with rfl | rfl
    · exact exScan3_ok _ (by simp)
    · exact exDrift_ok) h1 h2
  exact ⟨s, a, u, g, h1, h2, h3, pre, sn, ch, scan, d, post, e, z, hz,
    fun q T hq hT => h q T hq hT g (by simp [h3])⟩

/-- A component after a report, a prediction and a missed scan. -/
example (g0 : GX) (o : LL) : ∃ evs : List Kalman.Ev, List.Forall₂ (Means 1)
      [exScan3 [exAt 0 1 one_pos], exDrift, exScan3 []] evs ∧ (∀ e ∈ evs, e.Ok) ∧
      ∀ x w, (frame o id (frame o (Kalman.linearUpdate (Kalman.cvF 2) (Kalman.cvQ 1 2))
        (frame o (Kalman.correct Kalman.posH 1 (rLocal o (exAt 0 1 one_pos)).1) g0))).2 =
        (evs.foldl (Kalman.Ev.run 1) ⟨x, g0.2, w⟩).P :=
  C113_filter (k := exOpts3) (l := [exScan3 [], exDrift, exScan3 [exAt 0 1 one_pos]]) (T := 2 + 0)
    (.correct _ _ _ _ (.predict 1 2 id (by norm_num) (.correct _ _ _ _ .nil)))
    (.missed _ _ _ _ o (.cv 1 1 2 id o (.seen _ _ _ _ o ⟨exAt 0 1 one_pos, none, 0⟩ (by simp) .birth)))

end Verif.System
