import Verif.Particles.Weights
import Verif.Tracker.Stats

/-!
# Targets that the sensor cannot see, in clusters of any size (C121)
-/

namespace Verif.Particles

open Matrix
open Verif.Lap (XR)
open Verif.Murty (PickOk)
open Verif.Tracker
open Verif.System (LL Rpt head setHead)

/-- Without a particle in the field of view, a missed detection leaves weights that are all zero. -/
theorem unseen_miss {k : Opts} {sn : PSens} {p : Pdf} (h : ∀ g ∈ p.pf.c, sn.pDAt p.origin g.x = 0)
    (a : Nat) : Weightless ((sensor k sn).missPdf a p) ∧
      ((sensor k sn).missPdf a p).pf.c.length = p.pf.c.length := by
  have h0 : ((sensor k sn).missPdf a p).pf.c =
      p.pf.c.map fun g => ⟨g.x, g.w * sn.pDAt p.origin g.x⟩ := by
    show (PF.missed (sn.pDAt p.origin) p.pf).1.c = _
    unfold PF.missed PF.normalize
    have : PF.psum (p.pf.c.map fun g => (⟨g.x, g.w * sn.pDAt p.origin g.x⟩ : Part)) = 0 :=
      weightless_psum (by
        intro g hg
        obtain ⟨g', hg', rfl⟩ := List.mem_map.1 hg
        simp [h g' hg'])
    simp only [this]
    rw [if_neg (by norm_num)]
  rw [Weightless, h0]
  refine ⟨fun g hg => ?_, List.length_map _⟩
  obtain ⟨g', hg', rfl⟩ := List.mem_map.1 hg
  simp [h g' hg']

/-- Without a particle in the field of view, a report leaves weights that are all zero. -/
theorem unseen_upd {k : Opts} {sn : PSens} {p : Pdf} (h : ∀ g ∈ p.pf.c, sn.pDAt p.origin g.x = 0)
    (a : Nat) (z : Rpt) : Weightless ((sensor k sn).upd a p z) ∧
      ((sensor k sn).upd a p z).pf.c.length = p.pf.c.length := by
  have hl : ∀ g ∈ p.pf.c, sn.lik p.origin z g.x = 0 := by
    intro g hg; unfold PSens.lik; rw [h g hg]; simp
  have h0 : ((sensor k sn).upd a p z).pf.c =
      p.pf.c.map fun g => ⟨g.x, g.w * sn.lik p.origin z g.x⟩ := by
    show (PF.correct (sn.lik p.origin z) p.pf).1.c = _
    unfold PF.correct PF.normalize
    have : PF.psum (p.pf.c.map fun g => (⟨g.x, g.w * sn.lik p.origin z g.x⟩ : Part)) = 0 :=
      weightless_psum (by
        intro g hg
        obtain ⟨g', hg', rfl⟩ := List.mem_map.1 hg
        simp [hl g' hg'])
    simp only [this]
    rw [if_neg (by norm_num)]
  rw [Weightless, h0]
  refine ⟨fun g hg => ?_, List.length_map _⟩
  obtain ⟨g', hg', rfl⟩ := List.mem_map.1 hg
  simp [hl g' hg']

/-- Joining filters without weights gives a filter without weights. -/
theorem weightless_joins {k : Opts} (hk : GM.SortOk k.srt) {p : Pdf} (hv : p.pf.valid = false)
    {w : List ℝ} (hw : ∀ x ∈ w, 0 ≤ x) {qs : List Pdf} (hlen : w.length = qs.length) (hne : qs ≠ [])
    (h : ∀ q ∈ qs, Weightless q ∧ q.pf.c.length = k.N) : Weightless (join k p w qs) := by
  obtain ⟨m, kept, dropped, e, hp, _, _, _, _, hs⟩ := PF.C53_join k.srt hk k.N k.u k.is p.pf hv w
    (qs.map fun q => q.pf.c) (by simpa using hlen) hw
    (by
      intro c hc
      obtain ⟨q, hq, rfl⟩ := List.mem_map.1 hc
      exact (h q hq).2)
    (by simpa using hne)
  have hz : ∀ g ∈ kept, g.w = 0 := by
    intro g hg
    obtain ⟨y, hy, hg'⟩ := List.mem_flatMap.1 (hp.subset (List.mem_append_left _ hg))
    obtain ⟨g', h', rfl⟩ := List.mem_map.1 hg'
    obtain ⟨q, hq, hy2⟩ := List.mem_map.1 (List.of_mem_zip (a := y.1) (b := y.2) hy).2
    have := (h q hq).1 g' (by rw [hy2]; exact h')
    simp [this]
  have h0 : (kept.map GM.Cmp.w).sum = 0 := by rw [← PF.psum_eq]; exact weightless_psum hz
  have hc := (hs (by rw [h0]; norm_num)).1
  unfold join
  simp only [e]
  intro g hg
  have hg' : g ∈ m.c := hg
  rw [hc] at hg'
  exact hz g hg'

/-- What a cluster makes of a target of which no particle is in the field of view: it does not exist, or its
weights are all zero. -/
theorem unseen_compute {k : Opts} (hk : GM.SortOk k.srt) {sn : PSens}
    (hS : CostsOk (sensor k sn)) {prm : Params} {pick : ∀ r c, List (Murty.Node r c) → Nat}
    (hp : ∀ r c, PickOk (pick r c)) {fuel : Nat} {wt : ℚ → ℝ} (hwt : ∀ q, 0 ≤ wt q)
    {ts : List (Nat × Tgt Pdf)} {rs : List Rpt} {v : Comp Pdf Rpt}
    (e : compute (env k) (sensor k sn) prm pick fuel wt ts rs = some v) {o : LL}
    (ho : o = System.center (rs.map (fun z => z.1.x) ++ ts.map fun t => pos t.2.pdf)) {i a : Nat} {t : Tgt Pdf}
    (hi : ts[i]? = some (a, t)) (hb : Blind t.pdf) (hN : t.pdf.pf.c.length = k.N)
    (hout : ∀ g ∈ (toLocal o t.pdf).pf.c, sn.pDAt o g.x = 0) {u : Tgt Pdf} (hu : v.ts[i]? = some u) :
    u.r = 0 ∨ Weightless u.pdf := by
  have hi' := (List.getElem?_eq_some_iff.1 hi).1
  have hvn := (compute_n hS hp e).2 (by omega)
  unfold compute at e
  simp only at e
  have ho' : (env k).center (rs.map (env k).rpos ++ ts.map fun t => (env k).pos t.2.pdf) = o := ho.symm
  rw [ho'] at e
  set rl := rs.map ((env k).rLocal o) with hrl
  set tl := ts.map fun t => (t.1, forth (env k) o t.2) with htl
  have hl : tl.length = ts.length := by simp [htl]
  rw [if_neg (by omega)] at e
  split at e
  · cases e
  rename_i ac ha
  have hbd := Hyp.hypotheses_bnd hwt ha
  split at e
  · injection e with e
    subst e
    simp at hvn
  injection e with e
  subst e
  rw [List.getElem?_ofFn] at hu
  split at hu
  · rename_i hlt
    injection hu with hu
    subst hu
    have hg : tl.get ⟨i, hlt⟩ = (a, forth (env k) o t) := by
      rw [List.get_eq_getElem]
      have : ts[i] = (a, t) := (List.getElem?_eq_some_iff.1 hi).2
      simp only [htl, List.getElem_map, this]
    rw [hg]
    set T := Hyp.targetCorrect (ac.rowSum ⟨i, hlt⟩) (1 / 1000000) with hT
    by_cases h2 : T.2 = true
    · right
      show Weightless (toGlobal k _)
      refine weightless_toGlobal ?_ k
      show Weightless (if T.2 = true then _ else _)
      rw [if_pos h2]
      have hpd : ∀ g ∈ (toLocal o t.pdf).pf.c, sn.pDAt (toLocal o t.pdf).origin g.x = 0 := hout
      have hlen : (toLocal o t.pdf).pf.c.length = k.N := by
        rw [← hN]; exact List.length_map _
      refine weightless_joins (p := toLocal o t.pdf) hk hb.1 ?_ (by simp) (by simp) ?_
      · intro x hx
        simp only [List.mem_ofFn, Set.mem_range] at hx
        obtain ⟨j, rfl⟩ := hx
        exact (hbd.row ⟨i, hlt⟩ j).1
      · intro q hq
        rcases List.mem_append.1 hq with hq | hq
        · obtain ⟨z, _, rfl⟩ := List.mem_map.1 hq
          have := unseen_upd (k := k) hpd a z
          exact ⟨this.1, this.2.trans hlen⟩
        · rw [List.mem_singleton] at hq
          subst hq
          have := unseen_miss (k := k) hpd a
          exact ⟨this.1, this.2.trans hlen⟩
    · left
      show T.1 = 0
      rw [hT] at h2 ⊢
      unfold Hyp.targetCorrect at h2 ⊢
      split
      · rfl
      · rename_i s hs
        rw [hs] at h2
        simp only at h2
        split
        · rename_i hge
          rw [if_pos hge] at h2
          simp at h2
        · rfl
  · cases hu

theorem center_perm {l l' : List LL} (h : l.Perm l') : System.center l = System.center l' := by
  unfold System.center
  rw [h.length_eq, h.sum_eq]

/-- **C121, out of sight, any scan** Let any number of targets be alive, and let a scan of any number of
reports, all in the plane, be processed.  Then every target of which no particle lies in the field of view
(corners and particles converted to the frame around the mean of all the reports and all the targets) is
erased, or stays with weights that are all zero and a mean at latitude 0 and longitude 0; and it is gone
after the next prediction.  An address in use then may be that of a target born from one of the reports. -/
theorem C121_lost_any {k : Opts} (hk : GM.SortOk k.srt) (hk0 : 0 < k.N) {prm : Params} (hr : 0 < prm.rlim)
    {fuel : Nat} {calls : List (Call Pdf Rpt)} (hw : ∀ c ∈ calls, WCall k c) {s : St Pdf}
    (e : run (env k) prm fuel calls St.empty = some s) (sn : PSens) (ch : Choices) (scan : List (Rep Rpt))
    (dflt : Rep Rpt) (hok : PCall k (.correct (sensor k sn) ch scan dflt))
    (hcost : CallCosts (.correct (sensor k sn) ch scan dflt : Call Pdf Rpt)) (hwt : ∀ q, 0 ≤ ch.wt q)
    (hne : scan ≠ []) (hit : ∀ z ∈ scan, (k.rbox z.val).1.Touch ⟨-30000, -30000, 30000, 30000⟩)
    (posAt : Nat → LL) (hposAt : ∀ b t, s.heap b = some t → posAt b = pos t.pdf) (ne : LL → BBox.Pt ℝ)
    (hne' : ∀ x o, o = (1 / ((scan.length + s.targets.length : ℕ) : ℝ)) •
        ((scan.map fun z => z.val.1.x).sum + (s.targets.map posAt).sum) →
      ne x = (CF.ll2ne x o 0, CF.ll2ne x o 1))
    {a : Nat} {t : Tgt Pdf} (ht : s.heap a = some t)
    (hout : ∀ g ∈ t.pdf.pf.c, BBox.Box.within ⟨ne ![sn.fov.c0.1, sn.fov.c0.2],
      ne ![sn.fov.c1.1, sn.fov.c1.2], ne ![sn.fov.c2.1, sn.fov.c2.2], ne ![sn.fov.c3.1, sn.fov.c3.2]⟩
      (ne ![g.x 0, g.x 1]) = false)
    {s1 : St Pdf} {reps : Nat → Rep Rpt}
    (e1 : correct (env k) (sensor k sn) prm ch fuel scan dflt s = some (s1, reps)) :
    (∀ w, s1.heap a = some w → (∃ j < scan.length, w.id = (s.idc + j) % 2 ^ 32) ∨
      (w.id = t.id ∧ (∀ g ∈ w.pdf.pf.c, g.w = 0) ∧ pos w.pdf = 0)) ∧
    ∀ (m : Motion Pdf) (ord : List Nat → List Nat), PCall k (.predict m ord) →
      ∃ s2, predict (env k) prm m ord s1 = some s2 ∧
        ∀ w, s2.heap a = some w → ∃ j < scan.length, w.id = (s.idc + j) % 2 ^ 32 := by
  set o : LL := (1 / ((scan.length + s.targets.length : ℕ) : ℝ)) •
        ((scan.map fun z => z.val.1.x).sum + (s.targets.map posAt).sum) with ho
  have hbox := env_box k
  have hc : ∀ c ∈ calls, PCall k c := fun c h => (hw c h).p
  have hN := (C124_weights hk hk0 hw e a t ht).1
  have hs := run_inv hbox (Inv.empty (env k)) (fun c h => pCall_ok (hc c h)) e
  have hbl := blind_run hc e
  have hhit : ∀ b, b ∈ s.targets → ∀ j, j < scan.length → Hits (env k) scan s b j := by
    intro b hb j hj
    obtain ⟨t', h'⟩ := (hs.ok.live b).2 hb
    refine ⟨t', scan[j], h', List.getElem?_eq_getElem hj, ?_⟩
    have hb : (env k).box t'.pdf = ⟨-30000, -30000, 30000, 30000⟩ := (C90_box hc e b t' h').1
    rw [hb]
    exact hit _ (List.getElem_mem hj)
  have hpos : 0 < scan.length := List.length_pos_iff.2 hne
  have hat : a ∈ s.targets := (hs.ok.live a).1 ⟨t, ht⟩
  have hg : Gated (env k) (sensor k sn) scan s a := by
    obtain ⟨t', z, g1, g2, g3⟩ := hhit a hat 0 hpos
    exact ⟨t', g1, Or.inr ⟨z, List.mem_of_getElem? g2, g3⟩⟩
  obtain ⟨cls, s0, rcid, h1, c, v, i, u, hcm, hi, hv, hu, hid, hlive, _⟩ :=
    C28_correct_fate hbox prm fuel calls (fun c h => pCall_ok (hc c h)) s e (sensor k sn) ch scan dflt
      (pCall_ok hok) s1 reps e1 a t ht hg
  obtain ⟨hf, hch, hz⟩ := pCall_ok hok
  have hgone := fate_gone hbox hs ⟨hf, hch, hz⟩ e1 hg h1 hcm hi hv hu
  obtain ⟨cls', s1', rcid', p1, p2, p3, p4, p5, p6, p7, p8, p9, p10⟩ := prepare_ok hbox hf hz hs.ok
  rw [h1, Option.some.injEq, Prod.mk.injEq, Prod.mk.injEq] at p1
  obtain ⟨rfl, rfl, rfl⟩ := p1
  obtain ⟨q1, q2⟩ := prepare_closed hbox hf hz hs.ok h1 c hcm a (List.mem_of_getElem? hi)
  have hnd := (List.nodup_flatMap.1 p2.tnd).1 c hcm
  have hrd := (List.nodup_flatMap.1 (p6.nodup_iff.2 List.nodup_range)).1 c hcm
  have hcr : c.reports.Perm (List.range scan.length) := by
    rw [List.perm_ext_iff_of_nodup hrd List.nodup_range]
    intro j
    rw [List.mem_range]
    constructor
    · intro h
      exact List.mem_range.1 (p6.mem_iff.1 (List.mem_flatMap.2 ⟨c, hcm, h⟩))
    · intro h
      exact (q1 j).2 ⟨j, hhit a hat j h, Relation.ReflTransGen.refl⟩
  have hct : c.targets.Perm s.targets := by
    rw [List.perm_ext_iff_of_nodup hnd hs.ok.nodup]
    intro b
    constructor
    · intro h
      obtain ⟨t', g1, _⟩ := (p7 b).1 ⟨c, hcm, h⟩
      exact (hs.ok.live b).1 ⟨t', g1⟩
    · intro h
      exact (q2 b).2 (Or.inr ⟨0, ⟨0, hhit a hat 0 hpos, Relation.ReflTransGen.refl⟩,
        0, hhit b h 0 hpos, Relation.ReflTransGen.refl⟩)
  obtain ⟨t1, r1, r2, r3, r4, r5⟩ := p9 a t ht
  unfold compOf at hv
  split at hv
  · cases hv
  rename_i ts hts
  obtain ⟨k1, k2⟩ := readAll_spec hts
  have hti : ts[i]? = some (a, t1) := by
    rw [← k1, List.getElem?_map, Option.map_eq_some_iff] at hi
    obtain ⟨x, hx1, hx2⟩ := hi
    have := k2 x (List.mem_of_getElem? hx1)
    rw [hx2, r1] at this
    rw [hx1, ← hx2]
    cases this
    rfl
  have hcen : o = System.center ((c.reports.map fun j => (initReps scan rcid dflt j).val).map (fun z => z.1.x)
      ++ ts.map fun t => pos t.2.pdf) := by
    have e1 : (c.reports.map fun j => (initReps scan rcid dflt j).val).map (fun z => z.1.x) =
        c.reports.map fun j => (scan.getD j dflt).val.1.x := by
      rw [List.map_map]
      apply List.map_congr_left
      intro j hj
      have hj' := List.mem_range.1 (hcr.mem_iff.1 hj)
      simp [initReps, List.getD_eq_getElem?_getD, List.getElem?_eq_getElem hj']
    have e2 : ts.map (fun t => pos t.2.pdf) = c.targets.map posAt := by
      rw [← k1, List.map_map]
      apply List.map_congr_left
      intro x hx
      obtain ⟨t', g1, g2⟩ := p10 x.1 x.2 (k2 x hx)
      rw [g2.2.2.1]
      exact (hposAt _ _ g1).symm
    have e3 : (c.reports.map fun j => (scan.getD j dflt).val.1.x).Perm (scan.map fun z => z.val.1.x) := by
      have : (List.range scan.length).map (fun j => (scan.getD j dflt).val.1.x) =
          scan.map fun z => z.val.1.x := by
        apply List.ext_getElem
        · simp
        · intro n h1 h2
          have : n < scan.length := by simpa using h1
          simp [List.getD_eq_getElem?_getD, List.getElem?_eq_getElem this]
      rw [← this]
      exact hcr.map _
    rw [e1, e2, center_perm (e3.append (hct.map posAt)), ho]
    unfold System.center
    rw [List.sum_append, List.length_append, List.length_map, List.length_map]
  have hbl1 : Blind t1.pdf := by rw [r4]; exact hbl a t ht
  have hfin : u.r = 0 ∨ Weightless u.pdf := by
    refine unseen_compute hk hcost.1 hcost.2 hwt hv hcen hti hbl1 (by rw [r4]; exact hN) ?_ hu
    intro g hg
    rw [r4] at hg
    obtain ⟨g', hg', rfl⟩ := List.mem_map.1 hg
    have h2 := hout g' hg'
    simp only [hne' _ o rfl] at h2
    have hh : (head g'.x : LL) = ![g'.x 0, g'.x 1] := by ext i; fin_cases i <;> rfl
    have h3 : (nebbox o sn.fov).within (setHead (CF.ll2ne (head g'.x) o) g'.x 0,
        setHead (CF.ll2ne (head g'.x) o) g'.x 1) = false := by
      rw [hh]
      exact h2
    unfold PSens.pDAt
    simp only [h3]
    simp
  have key : ∀ w, s1.heap a = some w → (∃ j < scan.length, w.id = (s.idc + j) % 2 ^ 32) ∨
      (w.id = t.id ∧ Weightless w.pdf) := by
    intro w hw1
    by_cases hv : prm.rlim ≤ u.r ∧ covNorm u.pdf ≤ prm.covlim
    · obtain ⟨h1, _⟩ := hlive hv.1 hv.2
      rw [h1] at hw1
      cases hw1
      rcases hfin with h | h
      · exfalso
        linarith [hv.1]
      · exact Or.inr ⟨hid, h⟩
    · left
      refine hgone ?_ w hw1
      by_contra hcon
      push Not at hcon
      exact hv hcon
  refine ⟨fun w hw1 => ?_, fun m ord hm => ?_⟩
  · rcases key w hw1 with h | ⟨h1, h2⟩
    · exact Or.inl h
    · exact Or.inr ⟨h1, h2, weightless_pos h2⟩
  · obtain ⟨s2, h2, hf⟩ := C28_predict (env_box k) prm fuel
      (calls ++ [.correct (sensor k sn) ch scan dflt])
      (fun c h => by
        rcases List.mem_append.1 h with h | h
        · exact pCall_ok (hc c h)
        · rw [List.mem_singleton.1 h]; exact pCall_ok hok)
      s1 (by rw [run_append, e, Option.bind_some]; simp only [run, step, e1, Option.map_some]) m hm.1
    refine ⟨s2, h2, fun w hw2 => ?_⟩
    obtain ⟨g1, _, t', ht', rfl⟩ := (hf a).1 w hw2
    rcases key t' ht' with h | ⟨_, h⟩
    · exact h
    · exfalso
      have h0 : (predictTgt (env k) m t').r = 0 := by
        rcases hm.2 with ⟨pS, q, dT, rfl⟩ | ⟨pS, Q, rfl⟩
        · exact weightless_predict h k _ _ _
        · exact weightless_predict h k _ _ _
      rw [h0] at g1
      linarith

/-- Two reports, at longitudes 10 and 20 degrees, and a target at longitude 0: in the frame around
longitude 10, the field of view of a sensor that looks at longitudes from 15 to 25 does not contain a
particle of the target.  After the scan and a prediction over no time, its address is free or used by a
target born from one of the two reports. -/
example : ∃ (F : Nat) (s s1 s2 : St Pdf) (reps : Nat → Rep Rpt) (a : Nat) (t : Tgt Pdf),
    run (env exOpts) exPrm F
      [.correct (sensor exOpts exSens0) exCh (exAt 0) ⟨System.exRpt 0 0, none, 0⟩] St.empty = some s ∧
    s.heap a = some t ∧ t.r = 4 / 5 ∧
    correct (env exOpts) (sensor exOpts exEast) exPrm exCh F
      [⟨System.exRpt 0 10, none, 0⟩, ⟨System.exRpt 0 20, none, 0⟩] ⟨System.exRpt 0 0, none, 0⟩ s =
      some (s1, reps) ∧
    predict (env exOpts) exPrm (cv 1 1 0) id s1 = some s2 ∧
    ∀ w, s2.heap a = some w → ∃ j < 2, w.id = (s.idc + j) % 2 ^ 32 := by
  set dflt : Rep Rpt := ⟨System.exRpt 0 0, none, 0⟩ with hdflt
  set two : List (Rep Rpt) := [⟨System.exRpt 0 10, none, 0⟩, ⟨System.exRpt 0 20, none, 0⟩] with htwo
  have hlg : ∀ x, XR.IsC (exSens.lg x) := by
    intro x
    by_cases h : 0 < x
    · exact Or.inr ⟨_, if_pos h⟩
    · exact Or.inl (if_neg h)
  have hf0 : ∀ r : ℝ, XR.IsFin ((sensor exOpts exSens0).flsCost r) := by
    intro r
    change XR.IsFin (if _ then _ else _)
    split
    · rename_i hr
      exact System.exSens_ok.pos _ (by linarith)
    · exact ⟨_, rfl⟩
  have ok0 : PCall exOpts (.correct (sensor exOpts exSens0) exCh (exAt 0) dflt) :=
    ⟨⟨exSens0, ⟨by show (-90 : ℚ) ≤ 90; norm_num, by show (0 : ℚ) ≤ 180; norm_num⟩, rfl⟩, exCh_ok⟩
  have ok1 : PCall exOpts (.correct (sensor exOpts exEast) exCh two dflt) :=
    ⟨⟨exEast, ⟨by show (-5 : ℚ) ≤ 5; norm_num, by show (15 : ℚ) ≤ 25; norm_num⟩, rfl⟩, exCh_ok⟩
  have ok2 : PCall exOpts (.predict (cv 1 1 0) id) := ⟨fun l => List.Perm.refl _, Or.inl ⟨_, _, _, rfl⟩⟩
  have co0 : CallCosts (.correct (sensor exOpts exSens0) exCh (exAt 0) dflt : Call Pdf Rpt) :=
    ⟨⟨fun _ _ _ _ => hlg _, fun _ _ _ => hlg _, hf0⟩, exCh_pick⟩
  have co1 : CallCosts (.correct (sensor exOpts exEast) exCh two dflt : Call Pdf Rpt) :=
    ⟨⟨fun _ _ _ _ => hlg _, fun _ _ _ => hlg _, hf0⟩, exCh_pick⟩
  obtain ⟨F1, s, h1⟩ := step_total (env_box exOpts) exPrm (pCall_ok ok0) co0 (Inv.empty _)
    (by simp [St.empty])
  have hinv : Inv (env exOpts) s := step_inv (env_box exOpts) (Inv.empty _) (pCall_ok ok0) (h1 F1 le_rfl)
  have first : ∀ F, F1 ≤ F → ∃ (a : Nat) (t : Tgt Pdf) (reps : Nat → Rep Rpt),
      correct (env exOpts) (sensor exOpts exSens0) exPrm exCh F (exAt 0) dflt St.empty = some (s, reps) ∧
      s.targets = [a] ∧ s.heap a = some t ∧ t.r = 4 / 5 := by
    intro F hF
    obtain ⟨s', reps, new, g1, g2, _, g3, g4, _⟩ := C58_unreached_scan (env_box exOpts) exPrm F []
      (by simp) St.empty rfl (sensor exOpts exSens0) exCh (exAt 0) dflt (pCall_ok ok0)
      (by rintro a ⟨t, ht, _⟩; simp [St.empty] at ht)
    have hs' : s' = s := by
      have := h1 F hF
      simpa only [step, g1, Option.map_some, Option.some.injEq] using this
    subst hs'
    have hnl : new.length = 1 := g4 (by show (1 : ℝ) / 20 ≤ (1 : ℕ); norm_num)
      (by show (1 : ℝ) / 20 ≤ 1 / (1 : ℕ); norm_num)
    obtain ⟨a, hnew⟩ := List.length_eq_one_iff.1 hnl
    obtain ⟨t, ht, hr⟩ := g3 a (by rw [hnew]; simp)
    refine ⟨a, t, reps, g1, by rw [g2, hnew]; rfl, ht, ?_⟩
    rw [hr]
    show min ((1 : ℝ) / (1 : ℕ)) (4 / 5) = 4 / 5
    norm_num
  obtain ⟨a0, _, _, _, ha0, _⟩ := first F1 le_rfl
  obtain ⟨F2, s1, h2⟩ := step_total (env_box exOpts) exPrm (pCall_ok ok1) co1 hinv (by rw [ha0]; simp)
  set F := max F1 F2 with hF
  have e0 : run (env exOpts) exPrm F [.correct (sensor exOpts exSens0) exCh (exAt 0) dflt] St.empty =
      some s := by simp only [run, h1 F (le_max_left _ _)]
  obtain ⟨a, t, reps0, g1, hta, ht, hr⟩ := first F (le_max_left _ _)
  have hc := exStart g1 ht
  have hpos : pos t.pdf = 0 := by
    unfold pos
    rw [hc]
    ext i; fin_cases i <;> simp [mean, head]
  obtain ⟨⟨s1', reps⟩, he, hs1⟩ : ∃ v, correct (env exOpts) (sensor exOpts exEast) exPrm exCh F two
      dflt s = some v ∧ v.1 = s1 := by
    have := h2 F (le_max_right _ _)
    simpa only [step, Option.map_eq_some_iff] using this
  have hcs : ∀ c ∈ [Call.correct (sensor exOpts exSens0) exCh (exAt 0) dflt], WCall exOpts c := by
    intro c hc
    rw [List.mem_singleton.1 hc]
    exact ⟨⟨exSens0, ⟨by show (-90 : ℚ) ≤ 90; norm_num, by show (0 : ℚ) ≤ 180; norm_num⟩,
      by show (0 : ℝ) ≤ 1; norm_num, fun _ => rfl, rfl⟩, exCh_ok, fun q => (Hyp.ew_pos q).le⟩
  obtain ⟨_, hlost⟩ := C121_lost_any exOpts_sort (by show 0 < 2; norm_num) (prm := exPrm) (by show (0 : ℝ) < 1 / 20; norm_num) hcs e0
    exEast exCh two dflt ok1 co1 (fun q => (Hyp.ew_pos q).le) (by simp [two])
    (by
      intro z hz
      simp only [two, List.mem_cons, List.not_mem_nil, or_false] at hz
      rcases hz with rfl | rfl
      · exact exTouch' 0 10
      · exact exTouch' 0 20)
    (fun _ => 0)
    (by
      intro b t' hb
      have := (hinv.ok.live b).1 ⟨t', hb⟩
      rw [hta, List.mem_singleton] at this
      subst this
      rw [ht] at hb
      cases hb
      exact hpos.symm)
    (fun x => (CF.ll2ne x ![0, 10] 0, CF.ll2ne x ![0, 10] 1))
    (by
      intro x o ho
      have : o = ![0, 10] := by
        rw [ho, hta]
        ext i
        fin_cases i <;> simp [two, System.exRpt]
        norm_num
      rw [this])
    ht
    (by
      intro g hg
      have hx : g.x = 0 := by
        rw [hc] at hg
        simp only [List.mem_cons, List.not_mem_nil, or_false, or_self] at hg
        rw [hg]
      rw [hx]
      exact exOut) he
  obtain ⟨s2, hp, hgone⟩ := hlost (cv 1 1 0) id ok2
  exact ⟨F, s, s1', s2, reps, a, t, e0, ht, hr, he, hp, hgone⟩

end Verif.Particles
