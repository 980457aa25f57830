import Verif.Particles.Model
import Verif.System.Props
import Verif.Tracker.Defined

/-! # The tracker with particles: what the index knows (C90) -/

namespace Verif.Particles

open Matrix
open Verif.Lap (XR)
open Verif.Murty (PickOk)
open Verif.Tracker
open Verif.System (LL Rpt head setHead)

theorem env_box (k : Opts) : BoxOk (env k) := ⟨RTreeF.Bd64, k.areas.2, fun p => p.box.2⟩

/-- The calls of a user: predictions with `CV` or `NM`, corrections with a position sensor. -/
def PCall (k : Opts) : Call Pdf Rpt → Prop
  | .predict m ord => (∀ l, (ord l).Perm l) ∧
      ((∃ pS q dT, m = cv pS q dT) ∨ ∃ pS Q, m = nm pS Q)
  | .correct S ch _ _ => (∃ s, s.fovBox.Valid ∧ S = sensor k s) ∧ ChOk ch

theorem pCall_ok {k : Opts} {c : Call Pdf Rpt} (h : PCall k c) : CallOk (env k) c := by
  cases c with
  | predict m ord => exact h.1
  | correct S ch scan d =>
    obtain ⟨⟨s, hs, rfl⟩, hch⟩ := h
    exact ⟨hs, hch, fun z _ => (k.rbox z.val).2.1⟩

/-- What the boxes of a target can be: the box in the index is the whole plane, and the other one is
what is left of a box of 60 km after it has been converted from metres to degrees around some origins,
again and again. -/
def Blind (p : Pdf) : Prop :=
  p.pf.valid = false ∧ p.box = plane ∧
    ∃ os : List LL, p.bbox = os.foldl (fun b o => llbbox o b) wide

theorem normalize_valid {m : PF.Pf X ℝ} (h : m.valid = false) : (PF.normalize m).valid = false := by
  unfold PF.normalize
  split
  · exact h
  · rfl

theorem blind_toLocal {p : Pdf} (h : Blind p) (o : LL) : Blind (toLocal o p) := h

theorem blind_toGlobal {p : Pdf} (h : Blind p) (k : Opts) : Blind (toGlobal k p) := by
  obtain ⟨h1, h2, os, h3⟩ := h
  have e : updateBox k p = p := by unfold updateBox; rw [h1]; rfl
  unfold toGlobal
  rw [e]
  exact ⟨h1, h2, os ++ [p.origin], by rw [List.foldl_append, ← h3]; rfl⟩

theorem blind_construct (k : Opts) (m : X) (P : Matrix (Fin 4) (Fin 4) ℝ) (d : List X) :
    Blind (construct k m P d) :=
  blind_toGlobal (blind_toLocal ⟨rfl, rfl, [], rfl⟩ _) k

theorem blind_join {p : Pdf} (h : Blind p) (k : Opts) (w : List ℝ) (ps : List Pdf) :
    Blind (join k p w ps) := by
  unfold join
  split
  · rename_i m e
    refine ⟨?_, h.2⟩
    unfold PF.join at e
    simp only at e
    split at e
    · cases e
    · rename_i out _
      have hv : (PF.normalize { p.pf with c := out }).valid = false := normalize_valid h.1
      have : PF.resample k.u k.is (PF.normalize { p.pf with c := out }) =
          some (PF.normalize { p.pf with c := out }) := by
        unfold PF.resample
        rw [hv]
        rfl
      rw [this] at e
      cases e
      exact hv
  · exact h

theorem blind_predict {k : Opts} {m : Motion Pdf} (hm : ∀ p, Blind p → Blind (m.pdf p))
    {t : Tgt Pdf} (h : Blind t.pdf) : Blind (predictTgt (env k) m t).pdf := by
  refine blind_toGlobal ?_ k
  have h1 := hm _ (blind_toLocal h (pos t.pdf))
  exact ⟨normalize_valid h1.1, h1.2⟩

theorem blind_compute {k : Opts} {s : PSens} {prm : Params}
    {pick : ∀ r c, List (Murty.Node r c) → Nat} {fuel : Nat} {wt : ℚ → ℝ}
    {ts : List (Nat × Tgt Pdf)} {rs : List Rpt} {v : Comp Pdf Rpt}
    (hts : ∀ x ∈ ts, Blind x.2.pdf)
    (e : compute (env k) (sensor k s) prm pick fuel wt ts rs = some v) :
    ∀ t ∈ v.ts, Blind t.pdf := by
  unfold compute at e
  simp only at e
  set o := (env k).center (rs.map (env k).rpos ++ ts.map fun t => (env k).pos t.2.pdf) with ho
  set tl := ts.map fun t => (t.1, forth (env k) o t.2) with htl
  have htl' : ∀ x ∈ tl, Blind x.2.pdf := by
    intro x hx
    obtain ⟨y, hy, rfl⟩ := List.mem_map.1 hx
    exact blind_toLocal (hts y hy) o
  split at e
  · injection e with e
    subst e
    intro t ht
    simp at ht
  · split at e
    · cases e
    · split at e
      · injection e with e
        subst e
        intro t ht
        obtain ⟨y, hy, rfl⟩ := List.mem_map.1 ht
        exact blind_toGlobal (htl' y hy) k
      · injection e with e
        subst e
        intro t ht
        simp only [List.mem_ofFn, Set.mem_range] at ht
        obtain ⟨i, rfl⟩ := ht
        have hi := htl' (tl.get i) (List.get_mem _ _)
        refine blind_toGlobal ?_ k
        unfold corrected
        simp only
        split
        · exact blind_join hi k _ _
        · exact hi

theorem blind_run {k : Opts} {prm : Params} {fuel : Nat} {calls : List (Call Pdf Rpt)}
    (hc : ∀ c ∈ calls, PCall k c) {s : St Pdf}
    (e : run (env k) prm fuel calls St.empty = some s) (a : Nat) (t : Tgt Pdf)
    (ht : s.heap a = some t) : Blind t.pdf := by
  refine run_tgt (T := fun t => Blind t.pdf) (env_box k) ?_ (fun c h => pCall_ok (hc c h)) ?_ e a t ht
  · intro t u _ h2 h
    rw [h2]
    exact h
  · intro c hcm
    have h := hc c hcm
    cases c with
    | predict m ord =>
      intro t hT _
      obtain ⟨_, ⟨pS, q, dT, rfl⟩ | ⟨pS, Q, rfl⟩⟩ := h
      · exact blind_predict (fun p hp => hp) hT
      · exact blind_predict (fun p hp => hp) hT
    | correct S ch scan dflt =>
      obtain ⟨⟨sn, _, rfl⟩, _⟩ := h
      exact ⟨fun ts rs v hts _ hv t ht _ => blind_compute hts hv t ht, fun _ _ _ _ _ =>
        blind_construct k _ _ _⟩

/-- **C90, index** After any history of the tracker with particles, the box every live target has in the
index is `[-30000, 30000]²`, wherever its particles are; and the box compared with the field of view
has nothing to do with the particles either: its corners are those of that square, converted from metres to
degrees around some origins, again and again. -/
theorem C90_box {k : Opts} {prm : Params} {fuel : Nat} {calls : List (Call Pdf Rpt)}
    (hc : ∀ c ∈ calls, PCall k c) {s : St Pdf}
    (e : run (env k) prm fuel calls St.empty = some s) (a : Nat) (t : Tgt Pdf)
    (ht : s.heap a = some t) :
    t.pdf.box.1 = ⟨-30000, -30000, 30000, 30000⟩ ∧
    ∃ os : List LL, ∀ conv : BBox.Pt ℝ → BBox.Pt ℝ,
      (∀ x, conv x = os.foldl (fun q o => (CF.ne2ll ![q.1, q.2] o 0, CF.ne2ll ![q.1, q.2] o 1)) x) →
      t.pdf.bbox = ⟨conv (-30000, 30000), conv (-30000, -30000), conv (30000, -30000),
        conv (30000, 30000)⟩ := by
  obtain ⟨_, h2, os, h3⟩ := blind_run hc e a t ht
  refine ⟨by rw [h2]; rfl, os, fun conv hconv => ?_⟩
  rw [h3]
  have key : ∀ (os : List LL) (b : BBox.Box ℝ), os.foldl (fun b o => llbbox o b) b =
      let f := fun x => os.foldl (fun q o => (CF.ne2ll ![q.1, q.2] o 0, CF.ne2ll ![q.1, q.2] o 1)) x
      ⟨f b.c0, f b.c1, f b.c2, f b.c3⟩ := by
    intro os
    induction os with
    | nil => intro b; rfl
    | cons o l ih => intro b; rw [List.foldl_cons, ih]; rfl
  rw [key, hconv, hconv, hconv, hconv]
  rfl

/-- **C90, queries** A query for any box inside the plane returns every live target. -/
theorem C90_query {k : Opts} {prm : Params} {fuel : Nat} {calls : List (Call Pdf Rpt)}
    (hc : ∀ c ∈ calls, PCall k c) {s : St Pdf}
    (e : run (env k) prm fuel calls St.empty = some s) (b : RTree.Rect) (hb : b.Valid)
    (ht : b.Touch ⟨-30000, -30000, 30000, 30000⟩) :
    ∃ l, query s b = some l ∧ l.Perm s.targets := by
  obtain ⟨hco, hq⟩ := C26_index_coherent (env_box k) prm fuel calls (fun c h => pCall_ok (hc c h)) s e
  obtain ⟨l, q1, q2, q3⟩ := hq b hb
  refine ⟨l, q1, (List.perm_ext_iff_of_nodup q2 hco.listed).2 fun a => ?_⟩
  rw [q3, hco.live, Option.isSome_iff_exists]
  constructor
  · rintro ⟨t, ht, _⟩; exact ⟨t, ht⟩
  · rintro ⟨t, h⟩
    refine ⟨t, h, ?_⟩
    have : (env k).box t.pdf = ⟨-30000, -30000, 30000, 30000⟩ := (C90_box hc e a t h).1
    rw [this]
    exact ht

/-- **C90, gating** One report anywhere in the plane brings every live target into the correction, and
all of them into one cluster with it. -/
theorem C90_gated {k : Opts} {prm : Params} {fuel : Nat} {calls : List (Call Pdf Rpt)}
    (hc : ∀ c ∈ calls, PCall k c) {s : St Pdf}
    (e : run (env k) prm fuel calls St.empty = some s) (S : Sensor Pdf Rpt) (scan : List (Rep Rpt))
    (z : Rep Rpt) (hz : z ∈ scan) (ht : (k.rbox z.val).1.Touch ⟨-30000, -30000, 30000, 30000⟩) :
    ∀ a ∈ s.targets, Gated (env k) S scan s a ∧ ∃ j, scan[j]? = some z ∧ Linked (env k) scan s a j := by
  intro a ha
  obtain ⟨hco, _⟩ := C26_index_coherent (env_box k) prm fuel calls (fun c h => pCall_ok (hc c h)) s e
  obtain ⟨t, h⟩ := Option.isSome_iff_exists.1 ((hco.live a).1 ha)
  have hb : (env k).box t.pdf = ⟨-30000, -30000, 30000, 30000⟩ := (C90_box hc e a t h).1
  have hb' : ((env k).rbox z.val).Touch ((env k).box t.pdf) := by rw [hb]; exact ht
  obtain ⟨j, hj⟩ := List.mem_iff_getElem?.1 hz
  exact ⟨⟨t, h, Or.inr ⟨z, hz, hb'⟩⟩, j, hj, j, ⟨t, z, h, hj, hb'⟩, Relation.ReflTransGen.refl⟩

/-- **C90, limit** So as soon as 31 targets are alive, wherever they are, no scan with a report in the
plane can be processed. -/
theorem C90_crash {k : Opts} {prm : Params} {fuel : Nat} {calls : List (Call Pdf Rpt)}
    (hc : ∀ c ∈ calls, PCall k c) {s : St Pdf}
    (e : run (env k) prm fuel calls St.empty = some s) (hn : 31 ≤ s.targets.length)
    (S : Sensor Pdf Rpt) (ch : Choices) (scan : List (Rep Rpt)) (dflt : Rep Rpt)
    (hok : PCall k (.correct S ch scan dflt)) (hk : CallCosts (.correct S ch scan dflt : Call Pdf Rpt))
    (z : Rep Rpt) (hz : z ∈ scan) (ht : (k.rbox z.val).1.Touch ⟨-30000, -30000, 30000, 30000⟩)
    (fuel' : Nat) : correct (env k) S prm ch fuel' scan dflt s = none := by
  have hok' : ∀ c ∈ calls, CallOk (env k) c := fun c h => pCall_ok (hc c h)
  refine (C74_defined_iff (env_box k) prm fuel calls hok' s e S ch scan dflt (pCall_ok hok) hk).2
    (fun hs => ?_) fuel'
  have hg := C90_gated hc e S scan z hz ht
  obtain ⟨hco, _⟩ := C26_index_coherent (env_box k) prm fuel calls hok' s e
  obtain ⟨a, ha⟩ := List.exists_mem_of_length_pos (by omega : 0 < s.targets.length)
  obtain ⟨ga, j, hj, la⟩ := hg a ha
  have := hs a ga s.targets hco.listed (fun b hb => Or.inr ?_)
  · omega
  · obtain ⟨gb, i, hi, lb⟩ := hg b hb
    obtain ⟨t, ht'⟩ := Option.isSome_iff_exists.1 ((hco.live b).1 hb)
    have hb' : (env k).box t.pdf = ⟨-30000, -30000, 30000, 30000⟩ := (C90_box hc e b t ht').1
    exact ⟨j, la, j, ⟨t, z, ht', hj, by rw [hb']; exact ht⟩, Relation.ReflTransGen.refl⟩

/-! ## A concrete history -/

open Classical in
/-- Two particles for each target; the eigendecomposition is only right for diagonal matrices. -/
noncomputable def exOpts : Opts where
  srt l := l.insertionSort fun a b => b.w ≤ a.w
  N := 2
  u := 1 / 2
  is := [0, 1]
  gauss _ _ := wide
  eig P := (1, fun i => P i i)
  rbox z := System.exBoxAt ⌊z.1.x 0⌋ ⌊z.1.x 1⌋
  areas := ⟨RTreeF.areas64 System.exSqrt, RTreeF.areas64_ok RTreeF.correctSqrt_exists.choose_spec⟩

/-- The default field of view, 31 births per scan, two fixed draws, and logarithms as in
`System.exSens`. -/
noncomputable def exSens : PSens where
  fov := BBox.defaultFov
  fovBox := ⟨-90, 0, 90, 180⟩
  lambdaB := 31
  pv := 1
  pD := 1
  draws _ := [![1, 0, 0, 0], ![-1, 0, 0, 0]]
  lg := System.exSens.lg

/-- 31 reports, one degree of latitude apart. -/
noncomputable def exScan : List (Rep Rpt) :=
  (List.range 31).map fun i => ⟨System.exRpt i 15, none, 0⟩

/-- A scan of one report. -/
noncomputable def exOne : List (Rep Rpt) := [⟨System.exRpt (-45) 15, none, 0⟩]

theorem exCall_ok (scan : List (Rep Rpt)) :
    PCall exOpts (.correct (sensor exOpts exSens) exCh scan ⟨System.exRpt 0 0, none, 0⟩) :=
  ⟨⟨exSens, ⟨by show (-90 : ℚ) ≤ 90; norm_num, by show (0 : ℚ) ≤ 180; norm_num⟩, rfl⟩, exCh_ok⟩

theorem exCall_costs (scan : List (Rep Rpt)) : CallCosts
    (.correct (sensor exOpts exSens) exCh scan ⟨System.exRpt 0 0, none, 0⟩ : Call Pdf Rpt) := by
  have hl : ∀ x, XR.IsC (exSens.lg x) := by
    intro x
    by_cases h : 0 < x
    · exact Or.inr ⟨_, if_pos h⟩
    · exact Or.inl (if_neg h)
  refine ⟨⟨fun _ _ _ _ => hl _, fun _ _ _ => hl _, fun r => ?_⟩, exCh_pick⟩
  change XR.IsFin (if _ then _ else _)
  split
  · rename_i hr
    exact System.exSens_ok.pos _ (by linarith)
  · exact ⟨_, rfl⟩

/-- After a scan of 31 reports there are 31 targets. -/
theorem exRun : ∃ s, run (env exOpts) exPrm 0
    [.correct (sensor exOpts exSens) exCh exScan ⟨System.exRpt 0 0, none, 0⟩] St.empty = some s ∧
    s.targets.length = 31 := by
  obtain ⟨s, reps, new, h1, h2, _, h3, h4, _⟩ := C58_unreached_scan (env_box exOpts) exPrm 0 []
    (by simp) St.empty rfl (sensor exOpts exSens) exCh exScan ⟨System.exRpt 0 0, none, 0⟩
    (pCall_ok (exCall_ok _)) (by rintro a ⟨t, ht, _⟩; simp [St.empty] at ht)
  have hlen : exScan.length = 31 := by simp [exScan]
  rw [hlen] at h4
  have hl : new.length = 31 := h4 (by show (1 : ℝ) / 20 ≤ (31 : ℕ); norm_num)
    (by show (1 : ℝ) / 20 ≤ 31 / (31 : ℕ); norm_num)
  refine ⟨s, by simp only [run, step, h1, Option.map_some], ?_⟩
  rw [h2, List.length_append, hl]
  rfl

theorem exTouch : (exOpts.rbox (System.exRpt (-45) 15)).1.Touch ⟨-30000, -30000, 30000, 30000⟩ := by
  refine ⟨(exOpts.rbox (System.exRpt (-45) 15)).1.minx, (exOpts.rbox (System.exRpt (-45) 15)).1.miny, ?_, ?_⟩
  · obtain ⟨h1, h2⟩ := (exOpts.rbox (System.exRpt (-45) 15)).2.1
    exact ⟨le_refl _, h1, le_refl _, h2⟩
  · have h : ∀ a, -1000 ≤ System.exClamp a ∧ System.exClamp a ≤ 1000 := fun a =>
      ⟨le_max_left _ _, max_le (by norm_num) (min_le_left _ _)⟩
    have h1 := h ⌊(System.exRpt (-45) 15).1.x 0⌋
    have h2 := h ⌊(System.exRpt (-45) 15).1.x 1⌋
    refine ⟨?_, ?_, ?_, ?_⟩
    · show (-30000 : ℚ) ≤ System.exClamp _ - 1; linarith
    · show System.exClamp _ - 1 ≤ (30000 : ℚ); linarith
    · show (-30000 : ℚ) ≤ System.exClamp _ - 1; linarith
    · show System.exClamp _ - 1 ≤ (30000 : ℚ); linarith

/-- 31 targets between the equator and 30 degrees north: a query near the south pole returns all of
them, and a scan with one report there cannot be processed. -/
example : ∃ s, run (env exOpts) exPrm 0
    [.correct (sensor exOpts exSens) exCh exScan ⟨System.exRpt 0 0, none, 0⟩] St.empty = some s ∧
    (∃ l, query s ⟨-90, 0, -89, 1⟩ = some l ∧ l.length = 31) ∧
    ∀ fuel, correct (env exOpts) (sensor exOpts exSens) exPrm exCh fuel exOne
      ⟨System.exRpt 0 0, none, 0⟩ s = none := by
  obtain ⟨s, h1, h2⟩ := exRun
  have hc : ∀ c ∈ [Call.correct (sensor exOpts exSens) exCh exScan ⟨System.exRpt 0 0, none, 0⟩],
      PCall exOpts c := by
    intro c hc
    rw [List.mem_singleton.1 hc]
    exact exCall_ok _
  refine ⟨s, h1, ?_, fun fuel => ?_⟩
  · obtain ⟨l, q1, q2⟩ := C90_query hc h1 ⟨-90, 0, -89, 1⟩
      ⟨by show (-90 : ℚ) ≤ -89; norm_num, by show (0 : ℚ) ≤ 1; norm_num⟩
      ⟨-90, 0, by constructor <;> norm_num, by constructor <;> norm_num⟩
    exact ⟨l, q1, by rw [q2.length_eq, h2]⟩
  · exact C90_crash hc h1 (by omega) _ _ exOne _ (exCall_ok _) (exCall_costs _) _
      List.mem_cons_self exTouch fuel

end Verif.Particles
