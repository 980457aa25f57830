import Verif.Particles.Moments
import Verif.Particles.Birth
import Verif.PF.Props
import Verif.Tracker.Seen

/-!
# What a scan does to the particles of a target (C121)

The weights after `correct` and `missed`, and what becomes of a target that the sensor cannot see.
-/

namespace Verif.Particles

open Matrix
open Verif.Lap (XR)
open Verif.Lap.XR (fin pinf)
open Verif.Murty (PickOk)
open Verif.Tracker
open Verif.System (LL Rpt head setHead)

/-- **C121, detected** What a report `z` makes of the particles of a target in the frame of `p.origin`.
`J g` is the weight of particle `g` times the probability of detecting it times the density of the report
there, over the clutter intensity; the probability is `pD` if the particle lies in the box whose corners
are those of the field of view, each converted to the frame, and 0 otherwise.  No particle moves, and the
weights become `J g` over their sum `Z`, unless `Z` is at most 1e-8: then they become `J g`. -/
theorem C121_detected (k : Opts) (s : PSens) (a : Nat) (p : Pdf) (z : Rpt) (r Z : ℝ) (J : Part → ℝ)
    (hJ : ∀ g ∈ p.pf.c, J g = g.w * (if BBox.Box.within
        ⟨(CF.ll2ne ![s.fov.c0.1, s.fov.c0.2] p.origin 0, CF.ll2ne ![s.fov.c0.1, s.fov.c0.2] p.origin 1),
          (CF.ll2ne ![s.fov.c1.1, s.fov.c1.2] p.origin 0, CF.ll2ne ![s.fov.c1.1, s.fov.c1.2] p.origin 1),
          (CF.ll2ne ![s.fov.c2.1, s.fov.c2.2] p.origin 0, CF.ll2ne ![s.fov.c2.1, s.fov.c2.2] p.origin 1),
          (CF.ll2ne ![s.fov.c3.1, s.fov.c3.2] p.origin 0, CF.ll2ne ![s.fov.c3.1, s.fov.c3.2] p.origin 1)⟩
        (g.x 0, g.x 1) = true
      then s.pD * (Real.exp (-(((z.1.x - ![g.x 0, g.x 1]) ⬝ᵥ z.1.P⁻¹ *ᵥ (z.1.x - ![g.x 0, g.x 1])) / 2)) *
        Real.sqrt ((z.1.P⁻¹).det / (2 * Real.pi) ^ 2)) / z.1.kappa else 0))
    (hZ : Z = (p.pf.c.map J).sum) :
    (1 / 100000000 < Z →
      ((sensor k s).upd a p z).pf.c = p.pf.c.map (fun g => ⟨g.x, J g / Z⟩) ∧
      (sensor k s).detCost a r p z = s.lg (r * Z)) ∧
    (Z ≤ 1 / 100000000 →
      ((sensor k s).upd a p z).pf.c = p.pf.c.map (fun g => ⟨g.x, J g⟩) ∧
      (sensor k s).detCost a r p z = s.lg 0) := by
  have hl : ∀ g ∈ p.pf.c, g.w * s.lik p.origin z g.x = J g := by
    intro g hg
    rw [hJ g hg]
    have hh : (head g.x : LL) = ![g.x 0, g.x 1] := by ext i; fin_cases i <;> rfl
    unfold PSens.lik PSens.pDAt Kalman.likelihood
    rw [hh]
    have e : -((z.1.x - ![g.x 0, g.x 1]) ⬝ᵥ z.1.P⁻¹ *ᵥ (z.1.x - ![g.x 0, g.x 1])) * 0.5 =
        -(((z.1.x - ![g.x 0, g.x 1]) ⬝ᵥ z.1.P⁻¹ *ᵥ (z.1.x - ![g.x 0, g.x 1])) / 2) := by ring
    rw [e]
    change _ = g.w * (if (nebbox p.origin s.fov).within (g.x 0, g.x 1) = true then _ else _)
    by_cases h : (nebbox p.origin s.fov).within (g.x 0, g.x 1) = true
    · rw [if_pos h, if_pos h]
      ring
    · rw [if_neg h, if_neg h]
      ring
  have hZ' : Z = (p.pf.c.map fun g => g.w * s.lik p.origin z g.x).sum := by
    rw [hZ, List.map_congr_left hl]
  have hm : p.pf.c.map (fun g => (⟨g.x, g.w * s.lik p.origin z g.x⟩ : Part)) =
      p.pf.c.map fun g => ⟨g.x, J g⟩ :=
    List.map_congr_left fun g hg => by rw [hl g hg]
  constructor
  · intro h
    obtain ⟨h1, _, h3⟩ := (PF.C51_bayes p.pf (s.lik p.origin z) Z hZ').1 h
    refine ⟨?_, by show s.lg (r * _) = _; rw [h1]⟩
    show (PF.correct (s.lik p.origin z) p.pf).1.c = _
    rw [h3]
    exact List.map_congr_left fun g hg => by rw [hl g hg]
  · intro h
    obtain ⟨h1, _⟩ := (PF.C51_bayes p.pf (s.lik p.origin z) Z hZ').2 h
    refine ⟨?_, by show s.lg (r * _) = _; rw [h1, mul_zero]⟩
    show (PF.correct (s.lik p.origin z) p.pf).1.c = _
    unfold PF.correct PF.normalize
    have hs : PF.psum (p.pf.c.map fun g => (⟨g.x, g.w * s.lik p.origin z g.x⟩ : Part)) = Z := by
      rw [PF.psum_eq, hZ', List.map_map]; rfl
    simp only [hs, if_neg h.not_gt]
    exact hm

/-- **C121, missed** What a scan that does not detect the target makes of its particles: the weights are
multiplied by the probability of *detecting* the particle (finding C51) and divided by their sum `Z`, or
left at these products if `Z` is at most 1e-8.  The cost is that of a missed target all the same. -/
theorem C121_missed (k : Opts) (s : PSens) (a : Nat) (p : Pdf) (r Z : ℝ) (J : Part → ℝ)
    (hJ : ∀ g ∈ p.pf.c, J g = g.w * (if BBox.Box.within
        ⟨(CF.ll2ne ![s.fov.c0.1, s.fov.c0.2] p.origin 0, CF.ll2ne ![s.fov.c0.1, s.fov.c0.2] p.origin 1),
          (CF.ll2ne ![s.fov.c1.1, s.fov.c1.2] p.origin 0, CF.ll2ne ![s.fov.c1.1, s.fov.c1.2] p.origin 1),
          (CF.ll2ne ![s.fov.c2.1, s.fov.c2.2] p.origin 0, CF.ll2ne ![s.fov.c2.1, s.fov.c2.2] p.origin 1),
          (CF.ll2ne ![s.fov.c3.1, s.fov.c3.2] p.origin 0, CF.ll2ne ![s.fov.c3.1, s.fov.c3.2] p.origin 1)⟩
        (g.x 0, g.x 1) = true then s.pD else 0))
    (hZ : Z = (p.pf.c.map J).sum) :
    (1 / 100000000 < Z →
      ((sensor k s).missPdf a p).pf.c = p.pf.c.map (fun g => ⟨g.x, J g / Z⟩) ∧
      (sensor k s).missCost a r p = s.lg (r * (1 - Z))) ∧
    (Z ≤ 1 / 100000000 →
      ((sensor k s).missPdf a p).pf.c = p.pf.c.map (fun g => ⟨g.x, J g⟩) ∧
      (sensor k s).missCost a r p = s.lg r) := by
  have hl : ∀ g ∈ p.pf.c, g.w * s.pDAt p.origin g.x = J g := by
    intro g hg
    rw [hJ g hg]
    unfold PSens.pDAt
    change _ = g.w * (if (nebbox p.origin s.fov).within (g.x 0, g.x 1) = true then _ else _)
    by_cases h : (nebbox p.origin s.fov).within (g.x 0, g.x 1) = true
    · rw [if_pos h, if_pos h]
      ring
    · rw [if_neg h, if_neg h]
      ring
  have hm : p.pf.c.map (fun g => (⟨g.x, g.w * s.pDAt p.origin g.x⟩ : Part)) =
      p.pf.c.map fun g => ⟨g.x, J g⟩ :=
    List.map_congr_left fun g hg => by rw [hl g hg]
  have hs : PF.psum (p.pf.c.map fun g => (⟨g.x, J g⟩ : Part)) = Z := by
    rw [PF.psum_eq, hZ, List.map_map]; rfl
  constructor
  · intro h
    constructor
    · show (PF.missed (s.pDAt p.origin) p.pf).1.c = _
      unfold PF.missed PF.normalize
      simp only [hm, hs, if_pos h, List.map_map]
      rfl
    · show s.lg (r * (PF.missed (s.pDAt p.origin) p.pf).2) = _
      unfold PF.missed PF.normalize
      simp only [hm, hs, if_pos h]
  · intro h
    constructor
    · show (PF.missed (s.pDAt p.origin) p.pf).1.c = _
      unfold PF.missed PF.normalize
      simp only [hm, hs, if_neg h.not_gt]
    · show s.lg (r * (PF.missed (s.pDAt p.origin) p.pf).2) = _
      unfold PF.missed PF.normalize
      simp only [hm, hs, if_neg h.not_gt, sub_zero, mul_one]

/-! ## A target outside the field of view -/

/-- Weights that are all zero. -/
def Weightless (p : Pdf) : Prop := ∀ g ∈ p.pf.c, g.w = 0

theorem weightless_pos {p : Pdf} (h : Weightless p) : pos p = 0 := by
  have : mean p.pf.c = 0 := by
    unfold mean
    apply List.sum_eq_zero
    intro y hy
    obtain ⟨g, hg, rfl⟩ := List.mem_map.1 hy
    rw [h g hg, zero_smul]
  unfold pos
  rw [this]
  ext i; fin_cases i <;> rfl

theorem weightless_psum {c : List Part} (h : ∀ g ∈ c, g.w = 0) : PF.psum c = 0 := by
  rw [PF.psum_eq]
  apply List.sum_eq_zero
  intro y hy
  obtain ⟨g, hg, rfl⟩ := List.mem_map.1 hy
  exact h g hg

theorem weightless_toGlobal {p : Pdf} (h : Weightless p) (k : Opts) : Weightless (toGlobal k p) := by
  intro g hg
  have : (toGlobal k p).pf.c = p.pf.c.map fun g => ⟨setHead (CF.ne2ll (head g.x) p.origin) g.x, g.w⟩ := by
    unfold toGlobal updateBox
    split <;> rfl
  rw [this] at hg
  obtain ⟨g', hg', rfl⟩ := List.mem_map.1 hg
  exact h g' hg'

/-- A prediction of a target without weights makes its existence probability zero. -/
theorem weightless_predict {t : Tgt Pdf} (h : Weightless t.pdf) (k : Opts) (F Q : Matrix (Fin 4) (Fin 4) ℝ)
    (x : ℝ) : (predictTgt (env k) ⟨linearUpdate F Q, x⟩ t).r = 0 := by
  show t.r * x * (PF.normalize (linearUpdate F Q (toLocal (pos t.pdf) t.pdf)).pf).eta = 0
  have : PF.psum (linearUpdate F Q (toLocal (pos t.pdf) t.pdf)).pf.c = 0 := by
    apply weightless_psum
    intro g hg
    obtain ⟨g', hg', rfl⟩ := List.mem_map.1 hg
    obtain ⟨g'', hg'', rfl⟩ := List.mem_map.1 hg'
    exact h g'' hg''
  unfold PF.normalize
  rw [this, if_neg (by norm_num), mul_zero]

theorem weightless_join {k : Opts} (hk : GM.SortOk k.srt) {p : Pdf} (hv : p.pf.valid = false)
    {d x : ℝ} (hd : 0 ≤ d) (hx : 0 ≤ x) {q1 q2 : Pdf} (h1 : Weightless q1) (h2 : Weightless q2)
    (n1 : q1.pf.c.length = k.N) (n2 : q2.pf.c.length = k.N) :
    Weightless (join k p [d, x] [q1, q2]) := by
  obtain ⟨m, kept, dropped, e, hp, _, _, _, _, hs⟩ := PF.C53_join k.srt hk k.N k.u k.is p.pf hv [d, x]
    [q1.pf.c, q2.pf.c] rfl (by simp [hd, hx]) (by simp [n1, n2]) (by simp)
  have hz : ∀ g ∈ kept, g.w = 0 := by
    intro g hg
    have := hp.subset (List.mem_append_left _ hg)
    simp only [List.zip_cons_cons, List.zip_nil_right, List.flatMap_cons, List.flatMap_nil,
      List.append_nil, List.mem_append, List.mem_map] at this
    rcases this with ⟨g', h, rfl⟩ | ⟨g', h, rfl⟩
    · simp [h1 g' h]
    · simp [h2 g' h]
  have h0 : (kept.map GM.Cmp.w).sum = 0 := by rw [← PF.psum_eq]; exact weightless_psum hz
  have hc := (hs (by rw [h0]; norm_num)).1
  unfold join
  simp only [List.map_cons, List.map_nil, e]
  intro g hg
  have hg' : g ∈ m.c := hg
  rw [hc] at hg'
  exact hz g hg'

/-- **C121, out of sight** With particles, a target that the sensor cannot see does not survive a scan of
that sensor, however certain it was: let one target be alive, let the scan consist of one report, wherever
in the plane, and let no particle lie in the field of view (corners and particles converted to the frame
the program uses).  Then the target is erased, or it stays with weights that are all zero, and with a mean
at latitude 0 and longitude 0; and after the next prediction, whatever the model and the time step, it is
gone (an address in use then is that of a target born from the report). -/
theorem C121_lost {k : Opts} (hk : GM.SortOk k.srt) {prm : Params} (hw : prm.wlim ≤ 1)
    (hn : 2 < prm.nhypMax) (hr : 0 < prm.rlim) {fuel : Nat} {calls : List (Call Pdf Rpt)}
    (hc : ∀ c ∈ calls, PCall k c) {s : St Pdf} (e : run (env k) prm fuel calls St.empty = some s)
    {a : Nat} {t : Tgt Pdf} (ht : s.heap a = some t) (honly : ∀ b t', s.heap b = some t' → b = a)
    (hN : t.pdf.pf.c.length = k.N) (sn : PSens) (ch : Choices) (z dflt : Rep Rpt)
    (hok : PCall k (.correct (sensor k sn) ch [z] dflt))
    (hcost : CallCosts (.correct (sensor k sn) ch [z] dflt : Call Pdf Rpt)) (hwt : Antitone ch.wt)
    (hwt0 : ∀ q, 0 < ch.wt q) (hit : (k.rbox z.val).1.Touch ⟨-30000, -30000, 30000, 30000⟩)
    (ne : LL → BBox.Pt ℝ)
    (hne : ∀ x, ne x = (CF.ll2ne x ((1 / 2 : ℝ) • (z.val.1.x + pos t.pdf)) 0,
      CF.ll2ne x ((1 / 2 : ℝ) • (z.val.1.x + pos t.pdf)) 1))
    (hout : ∀ g ∈ t.pdf.pf.c, BBox.Box.within ⟨ne ![sn.fov.c0.1, sn.fov.c0.2],
      ne ![sn.fov.c1.1, sn.fov.c1.2], ne ![sn.fov.c2.1, sn.fov.c2.2], ne ![sn.fov.c3.1, sn.fov.c3.2]⟩
      (ne ![g.x 0, g.x 1]) = false)
    {s1 : St Pdf} {reps : Nat → Rep Rpt}
    (e1 : correct (env k) (sensor k sn) prm ch fuel [z] dflt s = some (s1, reps)) :
    (∀ w, s1.heap a = some w → w.id = s.idc % 2 ^ 32 ∨
      (w.id = t.id ∧ (∀ g ∈ w.pdf.pf.c, g.w = 0) ∧ pos w.pdf = 0)) ∧
    ∀ (m : Motion Pdf) (ord : List Nat → List Nat), PCall k (.predict m ord) →
      ∃ s2, predict (env k) prm m ord s1 = some s2 ∧
        ∀ w, s2.heap a = some w → w.id = s.idc % 2 ^ 32 := by
  set o : LL := (1 / 2 : ℝ) • (z.val.1.x + pos t.pdf) with ho
  have hcen : o = (env k).center [(env k).rpos z.val, (env k).pos t.pdf] := by
    show o = System.center [z.val.1.x, pos t.pdf]
    unfold System.center
    rw [ho]
    norm_num
  have hblind := blind_run hc e a t ht
  have hbx : (env k).box t.pdf = ⟨-30000, -30000, 30000, 30000⟩ := (C90_box hc e a t ht).1
  set p := toLocal o t.pdf with hp
  have hzero : ∀ g ∈ p.pf.c, sn.pDAt o g.x = 0 := by
    intro g hg
    obtain ⟨g', hg', rfl⟩ := List.mem_map.1 hg
    have h1 := hout g' hg'
    simp only [hne] at h1
    unfold PSens.pDAt
    have h2 : (nebbox o sn.fov).within (setHead (CF.ll2ne (head g'.x) o) g'.x 0,
        setHead (CF.ll2ne (head g'.x) o) g'.x 1) = false := by
      have hh : (head g'.x : LL) = ![g'.x 0, g'.x 1] := by ext i; fin_cases i <;> rfl
      rw [hh]
      exact h1
    simp only [h2]
    simp
  have hmiss : Weightless ((sensor k sn).missPdf a p) ∧
      ((sensor k sn).missPdf a p).pf.c.length = k.N := by
    have h0 : ((sensor k sn).missPdf a p).pf.c = p.pf.c.map fun g => ⟨g.x, g.w * sn.pDAt o g.x⟩ := by
      show (PF.missed (sn.pDAt o) p.pf).1.c = _
      unfold PF.missed PF.normalize
      have : PF.psum (p.pf.c.map fun g => (⟨g.x, g.w * sn.pDAt o g.x⟩ : Part)) = 0 :=
        weightless_psum (by
          intro g hg
          obtain ⟨g', hg', rfl⟩ := List.mem_map.1 hg
          simp [hzero g' hg'])
      simp only [this]
      rw [if_neg (by norm_num)]
    rw [Weightless, h0]
    constructor
    · intro g hg
      obtain ⟨g', hg', rfl⟩ := List.mem_map.1 hg
      simp [hzero g' hg']
    · rw [List.length_map, ← hN, hp]; exact List.length_map _
  have hupd : ∀ zl, Weightless ((sensor k sn).upd a p zl) ∧
      ((sensor k sn).upd a p zl).pf.c.length = k.N := by
    intro zl
    have hl : ∀ g ∈ p.pf.c, sn.lik o zl g.x = 0 := by
      intro g hg; unfold PSens.lik; rw [hzero g hg]; simp
    have h0 : ((sensor k sn).upd a p zl).pf.c = p.pf.c.map fun g => ⟨g.x, g.w * sn.lik o zl g.x⟩ := by
      show (PF.correct (sn.lik o zl) p.pf).1.c = _
      unfold PF.correct PF.normalize
      have : PF.psum (p.pf.c.map fun g => (⟨g.x, g.w * sn.lik o zl g.x⟩ : Part)) = 0 :=
        weightless_psum (by
          intro g hg
          obtain ⟨g', hg', rfl⟩ := List.mem_map.1 hg
          simp [hl g' hg'])
      simp only [this]
      rw [if_neg (by norm_num)]
    rw [Weightless, h0]
    constructor
    · intro g hg
      obtain ⟨g', hg', rfl⟩ := List.mem_map.1 hg
      simp [hl g' hg']
    · rw [List.length_map, ← hN, hp]; exact List.length_map _
  have mw : ∀ c, XR.IsC c → ∃ x, 0 ≤ x ∧ MissWeight ch.wt c x := by
    rintro c (rfl | ⟨q, rfl⟩)
    · exact ⟨0, le_refl _, Or.inr ⟨rfl, rfl⟩⟩
    · exact ⟨_, (hwt0 q).le, Or.inl ⟨q, rfl, rfl⟩⟩
  obtain ⟨hco, hpick⟩ := hcost
  obtain ⟨d, hd0, hd⟩ := mw _ (hco.det a t.r p ((env k).rLocal o z.val))
  obtain ⟨x, hx0, hx⟩ := mw _ (hco.miss a t.r p)
  obtain ⟨qf, hq⟩ := hco.fls t.r
  obtain ⟨u, d', x', y', hid, hK, hW, hcase, hlive, hgone⟩ := C105_seen (env_box k) prm fuel calls
    (fun c h => pCall_ok (hc c h)) s e (sensor k sn) ch [z] dflt (pCall_ok hok) hpick hwt
    (fun q => (hwt0 q).le) s1 reps e1 a t ht (j := 0) (z := z) rfl (by rw [hbx]; exact hit)
    (by
      intro i z' hi _
      have := (List.getElem?_eq_some_iff.1 hi).1
      simpa using this)
    (fun b t' hb _ => honly b t' hb) hw hn hcen hp rfl hd hx ⟨hq, rfl⟩
    (by have := hwt0 qf; linarith)
  have hd' : 0 ≤ d' ∧ 0 ≤ x' ∧ 0 ≤ y' := by
    have hy0 := (hwt0 qf).le
    rcases hK with ⟨rfl, rfl, rfl, _⟩ | ⟨rfl, rfl, rfl, _⟩ | ⟨rfl, rfl, rfl, _⟩ | ⟨rfl, rfl, rfl, _⟩ <;>
      exact ⟨by first | assumption | exact le_refl _, by first | assumption | exact le_refl _,
        by first | assumption | exact le_refl _⟩
  have key : ∀ w, s1.heap a = some w → w.id = s.idc % 2 ^ 32 ∨ (w.id = t.id ∧ Weightless w.pdf) := by
    intro w hw1
    by_cases hv : prm.rlim ≤ u.r ∧ covNorm u.pdf ≤ prm.covlim
    · obtain ⟨h1, _⟩ := hlive hv.1 hv.2
      rw [h1] at hw1
      cases hw1
      refine Or.inr ⟨hid, ?_⟩
      rcases hcase with ⟨_, _, h2, _⟩ | ⟨_, h2, _⟩
      · rw [h2]
        refine weightless_toGlobal ?_ k
        exact weightless_join (p := p) hk hblind.1 (div_nonneg hd'.1 hW.le) (div_nonneg hd'.2.1 hW.le)
          (hupd _).1 hmiss.1 (hupd _).2 hmiss.2
      · exfalso
        rw [h2] at hv
        linarith [hv.1]
    · left
      have : u.r < prm.rlim ∨ prm.covlim < (env k).covNorm u.pdf := by
        by_contra hcon
        push Not at hcon
        exact hv hcon
      obtain ⟨j, hj, h2⟩ := hgone this w hw1
      have : j = 0 := by simpa using hj
      rw [h2, this]; rfl
  refine ⟨fun w hw1 => ?_, fun m ord hm => ?_⟩
  · rcases key w hw1 with h | ⟨h1, h2⟩
    · exact Or.inl h
    · exact Or.inr ⟨h1, h2, weightless_pos h2⟩
  · obtain ⟨s2, h2, hf⟩ := C28_predict (env_box k) prm fuel
      (calls ++ [.correct (sensor k sn) ch [z] dflt])
      (fun c h => by
        rcases List.mem_append.1 h with h | h
        · exact pCall_ok (hc c h)
        · rw [List.mem_singleton.1 h]; exact pCall_ok hok)
      s1 (by rw [run_append, e, Option.bind_some]; simp only [run, step, e1, Option.map_some]) m hm.1
    refine ⟨s2, h2, fun w hw2 => ?_⟩
    obtain ⟨g1, _, t', ht', rfl⟩ := (hf a).1 w hw2
    rcases key t' ht' with h | ⟨_, h⟩
    · exact h
    · exfalso
      have h0 : (predictTgt (env k) m t').r = 0 := by
        rcases hm.2 with ⟨pS, q, dT, rfl⟩ | ⟨pS, Q, rfl⟩
        · exact weightless_predict h k _ _ _
        · exact weightless_predict h k _ _ _
      rw [h0] at g1
      linarith

/-! ## A concrete history -/

/-- After a first scan of one report, a target has been started from that report, moved to the frame around
it and back. -/
theorem first_report {k : Opts} {prm : Params} {fuel : Nat} {sn : PSens} {ch : Choices} {y dflt : Rep Rpt}
    (hok : PCall k (.correct (sensor k sn) ch [y] dflt)) {s : St Pdf} {reps : Nat → Rep Rpt}
    (e : correct (env k) (sensor k sn) prm ch fuel [y] dflt St.empty = some (s, reps)) {a : Nat}
    {t : Tgt Pdf} (ht : s.heap a = some t) :
    t.pdf = (sensor k sn).init (System.rGlobal y.val.1.x (System.rLocal y.val.1.x y.val)) := by
  obtain ⟨hf, hch, hz⟩ := pCall_ok hok
  have hbox := env_box k
  obtain ⟨cls, s1, rcid, new, d, _⟩ := correct_origin hbox hf hch hz (Inv.empty (env k)) e
  obtain ⟨cls', s1', rcid', p1, p2, p3, p4, p5, p6, p7, _⟩ :=
    prepare_ok hbox hf hz (Inv.empty (env k)).ok
  rw [d.prep, Option.some.injEq, Prod.mk.injEq, Prod.mk.injEq] at p1
  obtain ⟨rfl, rfl, rfl⟩ := p1
  have hs : Inv (env k) s := step_inv hbox (Inv.empty (env k)) (c := .correct (sensor k sn) ch [y] dflt)
    ⟨hf, hch, hz⟩ (prm := prm) (fuel := fuel) (by simp [step, e])
  have ha : a ∈ new := by
    have := (hs.ok.live a).1 ⟨t, ht⟩
    rw [d.targets] at this
    simpa [St.empty] using this
  obtain ⟨i, hi⟩ := List.mem_iff_getElem?.1 ha
  obtain ⟨j, x, hjx, hh⟩ := d.new_born hi
  have hj := (births_mem hch.ord p6 (List.mem_of_getElem? hjx)).1
  have hj0 : j = 0 := by simpa using hj
  subst hj0
  rw [ht] at hh
  obtain rfl := Option.some.inj hh
  obtain ⟨c, hcm, hjc⟩ := List.mem_flatMap.1 (p6.mem_iff.2 (List.mem_range.2 hj))
  have hct : c.targets = [] := by
    rw [List.eq_nil_iff_forall_not_mem]
    intro b hb
    obtain ⟨t', ht', _⟩ := (p7 b).1 ⟨c, hcm, hb⟩
    simp [St.empty] at ht'
  have hcr : c.reports = [0] := by
    have hnd := (List.nodup_flatMap.1 p2.rnd).1 c hcm
    have hall : ∀ n ∈ c.reports, n = 0 := by
      intro n hn
      have := List.mem_range.1 (p6.mem_iff.1 (List.mem_flatMap.2 ⟨c, hcm, hn⟩))
      simpa using this
    rcases hc : c.reports with _ | ⟨n, _ | ⟨m, l⟩⟩
    · rw [hc] at hjc; simp at hjc
    · rw [hall n (by rw [hc]; simp)]
    · exfalso
      rw [hc] at hnd hall
      have h1 := hall n (by simp)
      have h2 := hall m (by simp)
      rw [h1, h2] at hnd
      simp at hnd
  obtain ⟨q, hq⟩ := List.mem_iff_getElem?.1 hcm
  obtain ⟨v, hv⟩ := d.comps c hcm
  obtain ⟨f1, f2⟩ := find_reports p2.rnd hq hjc
  have hv' := hv
  simp only [compOf, hct, readAll, compute, List.map_nil, List.length_nil, if_true, hcr, List.map_cons,
    List.append_nil, Option.some.injEq] at hv'
  have hval : (reps 0).val = System.rGlobal y.val.1.x (System.rLocal y.val.1.x y.val) := by
    rw [d.rep]
    unfold finalReps
    rw [f1]
    simp only [hv, hcr]
    subst hv'
    have hc1 : (env k).center [(env k).rpos (initReps [y] rcid dflt 0).val] = y.val.1.x := by
      show System.center [y.val.1.x] = _
      simp [System.center]
    simp only [writeReps, if_true, hc1]
    rfl
  rw [← hval]

/-- A sensor that looks at longitudes from 15 to 25 degrees. -/
noncomputable def exEast : PSens :=
  { exSens0 with fov := ⟨(5, 25), (-5, 25), (-5, 15), (5, 15)⟩, fovBox := ⟨-5, 15, 5, 25⟩ }

theorem exTouch' (x y : ℝ) : (exOpts.rbox (System.exRpt x y)).1.Touch ⟨-30000, -30000, 30000, 30000⟩ := by
  refine ⟨(exOpts.rbox (System.exRpt x y)).1.minx, (exOpts.rbox (System.exRpt x y)).1.miny, ?_, ?_⟩
  · obtain ⟨h1, h2⟩ := (exOpts.rbox (System.exRpt x y)).2.1
    exact ⟨le_refl _, h1, le_refl _, h2⟩
  · have h : ∀ a, -1000 ≤ System.exClamp a ∧ System.exClamp a ≤ 1000 := fun a =>
      ⟨le_max_left _ _, max_le (by norm_num) (min_le_left _ _)⟩
    have h1 := h ⌊(System.exRpt x y).1.x 0⌋
    have h2 := h ⌊(System.exRpt x y).1.x 1⌋
    refine ⟨?_, ?_, ?_, ?_⟩
    · show (-30000 : ℚ) ≤ System.exClamp _ - 1; linarith
    · show System.exClamp _ - 1 ≤ (30000 : ℚ); linarith
    · show (-30000 : ℚ) ≤ System.exClamp _ - 1; linarith
    · show System.exClamp _ - 1 ≤ (30000 : ℚ); linarith

theorem exOpts_sort : GM.SortOk exOpts.srt := by
  classical
  intro l
  haveI : Std.Total (α := Part) (fun a b => b.w ≤ a.w) := ⟨fun a b => le_total _ _⟩
  haveI : IsTrans Part (fun a b => b.w ≤ a.w) := ⟨fun _ _ _ h1 h2 => h2.trans h1⟩
  exact ⟨List.perm_insertionSort _ l, List.pairwise_insertionSort _ l⟩

/-- In the frame of a point on the equator, the east coordinate has the sign of the difference in
longitude. -/
theorem east (lat lon o : ℝ) : CF.ll2ne ![lat, lon] ![0, o] 1 =
    CF.nrad lat * CF.cosd lat * CF.sind (lon - o) := by
  have h : CF.sind (lon - o) = CF.sind lon * CF.cosd o - CF.cosd lon * CF.sind o := by
    unfold CF.sind CF.cosd
    rw [← Real.sin_sub]
    congr 1
    ring
  unfold CF.ll2ne CF.ecef2ne
  rw [CF.ll2ecef_equator, h]
  simp [CF.nerot, CF.ll2ecef, Matrix.mulVec, dotProduct, Fin.sum_univ_three]
  ring

theorem sind_pos {x : ℝ} (h1 : 0 < x) (h2 : x < 180) : 0 < CF.sind x := by
  have hpi := Real.pi_pos
  apply Real.sin_pos_of_pos_of_lt_pi
  · positivity
  · rw [div_lt_iff₀ (by norm_num)]
    nlinarith

theorem cosd_pos {x : ℝ} (h1 : -90 < x) (h2 : x < 90) : 0 < CF.cosd x := by
  have hpi := Real.pi_pos
  apply Real.cos_pos_of_mem_Ioo
  constructor
  · rw [lt_div_iff₀ (by norm_num)]
    nlinarith
  · rw [div_lt_iff₀ (by norm_num)]
    nlinarith

theorem nrad_pos (x : ℝ) : 0 < CF.nrad x := by
  unfold CF.nrad CF.ea
  apply div_pos (by norm_num)
  apply Real.sqrt_pos.2
  have h1 : CF.sind x * CF.sind x ≤ 1 := by
    have := Real.sin_sq_le_one (x * Real.pi / 180)
    unfold CF.sind
    nlinarith
  unfold CF.e2
  nlinarith

theorem exOut : BBox.Box.within
    ⟨(CF.ll2ne ![(5 : ℝ), 25] ![0, 10] 0, CF.ll2ne ![(5 : ℝ), 25] ![0, 10] 1),
      (CF.ll2ne ![(-5 : ℝ), 25] ![0, 10] 0, CF.ll2ne ![(-5 : ℝ), 25] ![0, 10] 1),
      (CF.ll2ne ![(-5 : ℝ), 15] ![0, 10] 0, CF.ll2ne ![(-5 : ℝ), 15] ![0, 10] 1),
      (CF.ll2ne ![(5 : ℝ), 15] ![0, 10] 0, CF.ll2ne ![(5 : ℝ), 15] ![0, 10] 1)⟩
    (CF.ll2ne ![(0 : X) 0, (0 : X) 1] ![0, 10] 0, CF.ll2ne ![(0 : X) 0, (0 : X) 1] ![0, 10] 1) = false := by
  have hp : CF.ll2ne ![(0 : X) 0, (0 : X) 1] ![0, 10] 1 < 0 := by
    change CF.ll2ne ![(0 : ℝ), 0] ![0, 10] 1 < 0
    rw [east, show (0 : ℝ) - 10 = -10 by norm_num]
    have hm : CF.sind (-10) = -CF.sind 10 := by
      unfold CF.sind
      rw [← Real.sin_neg]
      congr 1
      ring
    rw [hm]
    have := mul_pos (mul_pos (nrad_pos 0) (cosd_pos (by norm_num : (-90 : ℝ) < 0) (by norm_num)))
      (sind_pos (by norm_num : (0 : ℝ) < 10) (by norm_num))
    linarith
  have hq : ∀ lat lon : ℝ, -90 < lat → lat < 90 → 10 < lon → lon < 180 →
      0 < CF.ll2ne ![lat, lon] ![0, 10] 1 := by
    intro lat lon h1 h2 h3 h4
    rw [east]
    exact mul_pos (mul_pos (nrad_pos lat) (cosd_pos h1 h2)) (sind_pos (by linarith) (by linarith))
  unfold BBox.Box.within
  rw [if_pos]
  rw [Bool.not_eq_true', ← Bool.not_eq_true, BBox.AABB.within_iff]
  rintro ⟨_, _, h, _⟩
  have h1 := hq 5 25 (by norm_num) (by norm_num) (by norm_num) (by norm_num)
  have h2 := hq (-5) 25 (by norm_num) (by norm_num) (by norm_num) (by norm_num)
  have h3 := hq (-5) 15 (by norm_num) (by norm_num) (by norm_num) (by norm_num)
  have h4 := hq 5 15 (by norm_num) (by norm_num) (by norm_num) (by norm_num)
  have : 0 < (BBox.Box.aabbox (⟨(CF.ll2ne ![(5 : ℝ), 25] ![0, 10] 0, CF.ll2ne ![(5 : ℝ), 25] ![0, 10] 1),
      (CF.ll2ne ![(-5 : ℝ), 25] ![0, 10] 0, CF.ll2ne ![(-5 : ℝ), 25] ![0, 10] 1),
      (CF.ll2ne ![(-5 : ℝ), 15] ![0, 10] 0, CF.ll2ne ![(-5 : ℝ), 15] ![0, 10] 1),
      (CF.ll2ne ![(5 : ℝ), 15] ![0, 10] 0, CF.ll2ne ![(5 : ℝ), 15] ![0, 10] 1)⟩ : BBox.Box ℝ)).y0 := by
    simp only [BBox.Box.aabbox, BBox.AABB.mk4]
    exact lt_min (lt_min (lt_min (lt_min h1 h2) h3) h4)
      (lt_max_of_lt_left (lt_max_of_lt_left (lt_max_of_lt_left h1)))
  linarith

/-- The scan of one report at latitude 0 and the given longitude. -/
noncomputable def exAt (lon : ℝ) : List (Rep Rpt) := [⟨System.exRpt 0 lon, none, 0⟩]

theorem exStart {F : Nat} {s : St Pdf} {reps : Nat → Rep Rpt}
    (e : correct (env exOpts) (sensor exOpts exSens0) exPrm exCh F (exAt 0) ⟨System.exRpt 0 0, none, 0⟩
      St.empty = some (s, reps)) {a : Nat} {t : Tgt Pdf} (ht : s.heap a = some t) :
    t.pdf.pf.c = [⟨0, 1 / 2⟩, ⟨0, 1 / 2⟩] := by
  have hok : PCall exOpts (.correct (sensor exOpts exSens0) exCh (exAt 0) ⟨System.exRpt 0 0, none, 0⟩) :=
    ⟨⟨exSens0, ⟨by show (-90 : ℚ) ≤ 90; norm_num, by show (0 : ℚ) ≤ 180; norm_num⟩, rfl⟩, exCh_ok⟩
  have h := first_report hok e ht
  have hrt : CF.roundTrip ![0, 0] ![0, 0] = ![0, 0] := by
    rw [CF.C57_equator]
    simp [CF.sind]
  have hx : (System.rGlobal (System.exRpt 0 0).1.x (System.rLocal (System.exRpt 0 0).1.x
      (System.exRpt 0 0))).1.x = ![0, 0] := hrt
  have hm : initMean (System.rGlobal (System.exRpt 0 0).1.x (System.rLocal (System.exRpt 0 0).1.x
      (System.exRpt 0 0))) = 0 := by
    unfold initMean
    rw [hx]
    ext i; fin_cases i <;> rfl
  rw [h]
  show (construct exOpts _ _ _).pf.c = _
  rw [construct_c]
  simp only [hm, exSens0, Kalman.nrandCol, Matrix.mulVec_zero, add_zero, List.map_cons, List.map_nil]
  have hmean : ∀ w : ℝ, mean [⟨0, w⟩, ⟨0, w⟩] = 0 := by intro w; simp [mean]
  have hh : (head (0 : X) : LL) = ![0, 0] := by ext i; fin_cases i <;> rfl
  have hset : setHead ![0, 0] (0 : X) = 0 := by ext i; fin_cases i <;> rfl
  rw [hmean, hh, hrt, hset]
  norm_num [exOpts]

/-- **C121 refuted** A target at latitude 0 and longitude 0 with existence probability 0.8; a scan of a
sensor that looks at longitudes from 15 to 25 degrees, with one report there; a prediction over no time
with a survival probability of 1: the target is gone. -/
theorem C121_refuted : ∃ (F : Nat) (s s2 : St Pdf) (a : Nat) (t : Tgt Pdf),
    run (env exOpts) exPrm F
      [.correct (sensor exOpts exSens0) exCh (exAt 0) ⟨System.exRpt 0 0, none, 0⟩] St.empty = some s ∧
    s.heap a = some t ∧ t.r = 4 / 5 ∧ (∀ g ∈ t.pdf.pf.c, g.x = 0) ∧
    run (env exOpts) exPrm F
      [.correct (sensor exOpts exEast) exCh (exAt 20) ⟨System.exRpt 0 0, none, 0⟩,
       .predict (cv 1 1 0) id] s = some s2 ∧
    ∀ b w, s2.heap b = some w → w.id ≠ t.id := by
  set dflt : Rep Rpt := ⟨System.exRpt 0 0, none, 0⟩ with hdflt
  have hlg : ∀ x, XR.IsC (exSens.lg x) := by
    intro x
    by_cases h : 0 < x
    · exact Or.inr ⟨_, if_pos h⟩
    · exact Or.inl (if_neg h)
  have hf0 : ∀ r : ℝ, XR.IsFin ((sensor exOpts exSens0).flsCost r) := by
    intro r
    change XR.IsFin (if _ then _ else _)
    split
    · rename_i hr
      exact System.exSens_ok.pos _ (by linarith)
    · exact ⟨_, rfl⟩
  have ok0 : PCall exOpts (.correct (sensor exOpts exSens0) exCh (exAt 0) dflt) :=
    ⟨⟨exSens0, ⟨by show (-90 : ℚ) ≤ 90; norm_num, by show (0 : ℚ) ≤ 180; norm_num⟩, rfl⟩, exCh_ok⟩
  have ok1 : PCall exOpts (.correct (sensor exOpts exEast) exCh (exAt 20) dflt) :=
    ⟨⟨exEast, ⟨by show (-5 : ℚ) ≤ 5; norm_num, by show (15 : ℚ) ≤ 25; norm_num⟩, rfl⟩, exCh_ok⟩
  have ok2 : PCall exOpts (.predict (cv 1 1 0) id) := ⟨fun l => List.Perm.refl _, Or.inl ⟨_, _, _, rfl⟩⟩
  have co0 : CallCosts (.correct (sensor exOpts exSens0) exCh (exAt 0) dflt : Call Pdf Rpt) :=
    ⟨⟨fun _ _ _ _ => hlg _, fun _ _ _ => hlg _, hf0⟩, exCh_pick⟩
  have co1 : CallCosts (.correct (sensor exOpts exEast) exCh (exAt 20) dflt : Call Pdf Rpt) :=
    ⟨⟨fun _ _ _ _ => hlg _, fun _ _ _ => hlg _, hf0⟩, exCh_pick⟩
  obtain ⟨F1, s, h1⟩ := step_total (env_box exOpts) exPrm (pCall_ok ok0) co0 (Inv.empty _)
    (by simp [St.empty])
  have hinv : Inv (env exOpts) s := step_inv (env_box exOpts) (Inv.empty _) (pCall_ok ok0) (h1 F1 le_rfl)
  have hlen : s.targets.length ≤ 1 := by
    obtain ⟨s', reps, new, g1, g2, _, _, g4, _⟩ := C58_unreached_scan (env_box exOpts) exPrm F1 []
      (by simp) St.empty rfl (sensor exOpts exSens0) exCh (exAt 0) dflt (pCall_ok ok0)
      (by rintro a ⟨t, ht, _⟩; simp [St.empty] at ht)
    have := h1 F1 le_rfl
    simp only [step, g1, Option.map_some, Option.some.injEq] at this
    rw [← this, g2, List.length_append, g4 (by show (1 : ℝ) / 20 ≤ (1 : ℕ); norm_num)
      (by show (1 : ℝ) / 20 ≤ 1 / (1 : ℕ); norm_num)]
    simp [St.empty, exAt]
  obtain ⟨F2, s1, h2⟩ := step_total (env_box exOpts) exPrm (pCall_ok ok1) co1 hinv (by omega)
  set F := max F1 F2 with hF
  have e0 : run (env exOpts) exPrm F [.correct (sensor exOpts exSens0) exCh (exAt 0) dflt] St.empty =
      some s := by simp only [run, h1 F (le_max_left _ _)]
  obtain ⟨s', reps0, new, g1, g2, _, g3, g4, _⟩ := C58_unreached_scan (env_box exOpts) exPrm F []
    (by simp) St.empty rfl (sensor exOpts exSens0) exCh (exAt 0) dflt (pCall_ok ok0)
    (by rintro a ⟨t, ht, _⟩; simp [St.empty] at ht)
  have hs' : s' = s := by
    have := h1 F (le_max_left _ _)
    simpa only [step, g1, Option.map_some, Option.some.injEq] using this
  subst hs'
  have hnl : new.length = 1 := g4 (by show (1 : ℝ) / 20 ≤ (1 : ℕ); norm_num)
    (by show (1 : ℝ) / 20 ≤ 1 / (1 : ℕ); norm_num)
  obtain ⟨a, hnew⟩ := List.length_eq_one_iff.1 hnl
  have hta : s'.targets = [a] := by rw [g2, hnew]; rfl
  obtain ⟨t, ht, hr⟩ := g3 a (by rw [hnew]; simp)
  have hc := exStart g1 ht
  have hpos : pos t.pdf = 0 := by
    unfold pos
    rw [hc]
    ext i; fin_cases i <;> simp [mean, head]
  obtain ⟨⟨s1', reps⟩, he, hs1⟩ : ∃ v, correct (env exOpts) (sensor exOpts exEast) exPrm exCh F (exAt 20)
      dflt s' = some v ∧ v.1 = s1 := by
    have := h2 F (le_max_right _ _)
    simpa only [step, Option.map_eq_some_iff] using this
  subst hs1
  have hcs : ∀ c ∈ [Call.correct (sensor exOpts exSens0) exCh (exAt 0) dflt], PCall exOpts c := by
    intro c hc
    rw [List.mem_singleton.1 hc]
    exact ok0
  have ho : (1 / 2 : ℝ) • ((System.exRpt 0 20).1.x + pos t.pdf) = ![0, 10] := by
    rw [hpos]
    ext i
    fin_cases i <;> simp [System.exRpt]
    norm_num
  obtain ⟨_, hlost⟩ := C121_lost exOpts_sort (prm := exPrm) (by show (1 : ℝ) / 100 ≤ 1; norm_num)
    (by show 2 < 100; norm_num) (by show (0 : ℝ) < 1 / 20; norm_num) hcs e0 ht
    (fun b t' hb => by
      have := (hinv.ok.live b).1 ⟨t', hb⟩
      rw [hta] at this
      simpa using this)
    (by rw [hc]; rfl) exEast exCh ⟨System.exRpt 0 20, none, 0⟩ dflt ok1 co1 (fun _ _ => Hyp.ew_le) Hyp.ew_pos (exTouch' 0 20)
    (fun x => (CF.ll2ne x ![0, 10] 0, CF.ll2ne x ![0, 10] 1)) (fun x => by rw [ho])
    (by
      intro g hg
      have hx : g.x = 0 := by
        rw [hc] at hg
        simp only [List.mem_cons, List.not_mem_nil, or_false, or_self] at hg
        rw [hg]
      rw [hx]
      exact exOut) he
  obtain ⟨s2, hp, hgone⟩ := hlost (cv 1 1 0) id ok2
  have e2 : run (env exOpts) exPrm F [.correct (sensor exOpts exEast) exCh (exAt 20) dflt,
      .predict (cv 1 1 0) id] s' = some s2 := by
    simp only [run, step, he, Option.map_some, hp]
  refine ⟨F, s', s2, a, t, e0, ht, ?_, ?_, e2, ?_⟩
  · rw [hr]
    show min ((1 : ℝ) / (1 : ℕ)) (4 / 5) = 4 / 5
    norm_num
  · intro g hg
    rw [hc] at hg
    simp only [List.mem_cons, List.not_mem_nil, or_false, or_self] at hg
    rw [hg]
  · intro b w hw hid
    obtain ⟨rfl, _⟩ := C27_ids_unique (env_box exOpts) exPrm F
      [.correct (sensor exOpts exSens0) exCh (exAt 0) dflt,
       .correct (sensor exOpts exEast) exCh (exAt 20) dflt, .predict (cv 1 1 0) id]
      (by
        intro c hc
        simp only [List.mem_cons, List.not_mem_nil, or_false] at hc
        rcases hc with rfl | rfl | rfl
        · exact pCall_ok ok0
        · exact pCall_ok ok1
        · exact pCall_ok ok2)
      (by simp [Call.reports, exAt]) 1 3 1 le_rfl (by norm_num) s' s' s2 e0 e0
      (by
        show run (env exOpts) exPrm F ([_] ++ [_, _]) St.empty = _
        rw [run_append, e0]
        exact e2)
      a b t w ht hw hid.symm
    have h3 := hgone w hw
    obtain ⟨new', n1, n2, n3, n4, n5⟩ := C27_ids_call (env_box exOpts) exPrm F []
      (.correct (sensor exOpts exSens0) exCh (exAt 0) dflt) (by simpa using pCall_ok ok0) St.empty s' rfl
      (by simp only [step, g1, Option.map_some]) (by simp [St.empty, Call.reports, exAt])
    have hmem : a ∈ new' := by
      by_contra hcon
      obtain ⟨t', ht', _⟩ := n5 a hcon t ht
      simp [St.empty] at ht'
    obtain ⟨i, hi⟩ := List.mem_iff_getElem?.1 hmem
    obtain ⟨t', ht', hid'⟩ := n4 i a hi
    rw [ht] at ht'
    cases ht'
    have hil := (List.getElem?_eq_some_iff.1 hi).1
    have : new'.length ≤ 1 := n2
    have hidc : s'.idc = 1 := by rw [n3]; show 0 + _ = 1; omega
    rw [hidc, hid, hid'] at h3
    change 0 + i = _ at h3
    omega

/-- In the frame of a point on the equator, the north coordinate is the height above the plane of the
equator. -/
theorem north (lat lon o : ℝ) : CF.ll2ne ![lat, lon] ![0, o] 0 =
    CF.nrad lat * (1 - CF.e2) * CF.sind lat := by
  have hs : CF.sind 0 = 0 := by unfold CF.sind; simp
  have hc : CF.cosd 0 = 1 := by unfold CF.cosd; simp
  unfold CF.ll2ne CF.ecef2ne
  rw [CF.ll2ecef_equator]
  simp [CF.nerot, CF.ll2ecef, Matrix.mulVec, dotProduct, Fin.sum_univ_three, hs, hc]

/-- A point in a box that lies like a trapezium around the second axis. -/
theorem trapezium {a c b d : ℝ} (ha : 0 < a) (hc : 0 < c) (h : d < b) :
    (⟨(a, b), (-a, b), (-c, d), (c, d)⟩ : BBox.Box ℝ).within (0, (b + d) / 2) = true := by
  have hn : ¬ (b < (b + d) / 2) := by linarith
  have h1 : (b + d) / 2 < b := by linarith
  have h2 : ¬ ((b + d) / 2 < d) := by linarith
  have hbd : b - d ≠ 0 := by linarith
  have hdb : d - b ≠ 0 := by linarith
  have t1 : BBox.toggles ((a, b) : BBox.Pt ℝ) (c, d) (0, (b + d) / 2) = true := by
    have : (c - a) * ((b + d) / 2 - b) / (d - b) + a = (a + c) / 2 := by field_simp; ring
    simp only [BBox.toggles, this]
    simp [h1, h2]
    linarith
  have t2 : BBox.toggles ((-a, b) : BBox.Pt ℝ) (a, b) (0, (b + d) / 2) = false := by
    simp [BBox.toggles]
  have t3 : BBox.toggles ((-c, d) : BBox.Pt ℝ) (-a, b) (0, (b + d) / 2) = false := by
    have : (-a - -c) * ((b + d) / 2 - d) / (b - d) + -c = -((a + c) / 2) := by field_simp; ring
    simp only [BBox.toggles, this]
    simp [h1, h2]
    linarith
  have t4 : BBox.toggles ((c, d) : BBox.Pt ℝ) (-c, d) (0, (b + d) / 2) = false := by
    simp [BBox.toggles]
  have hin : (BBox.Box.aabbox (⟨(a, b), (-a, b), (-c, d), (c, d)⟩ : BBox.Box ℝ)).within
      (0, (b + d) / 2) = true := by
    rw [BBox.AABB.within_iff]
    simp only [BBox.Box.aabbox, BBox.AABB.mk4]
    refine ⟨?_, ?_, ?_, ?_⟩
    · exact min_le_of_left_le (min_le_of_left_le (min_le_of_left_le (min_le_of_right_le (by linarith))))
    · exact le_max_of_le_right (le_max_of_le_left (le_max_of_le_left (le_max_of_le_left ha.le)))
    · exact min_le_of_left_le (min_le_of_right_le (by linarith))
    · exact le_max_of_le_right (le_max_of_le_left (le_max_of_le_left (le_max_of_le_left h1.le)))
  unfold BBox.Box.within
  simp [hin, t1, t2, t3, t4]

/-- Two particles, one in the field of view of `exEast` and one at longitude 0, both of weight 1/2, in the
frame at longitude 10: a scan that does not detect the target leaves only the one in view. -/
example : ∃ x y : X, CF.ll2ne ![0, 0] ![0, 10] = ![y 0, y 1] ∧
    ((sensor exOpts exEast).missPdf 0 ⟨⟨[⟨x, 1 / 2⟩, ⟨y, 1 / 2⟩], 1, false⟩, ![0, 10], wide, plane⟩).pf.c =
      [⟨x, 1⟩, ⟨y, 0⟩] := by
  set b := CF.ll2ne ![(5 : ℝ), 25] ![0, 10] 1 with hb
  set d := CF.ll2ne ![(5 : ℝ), 15] ![0, 10] 1 with hd
  set a := CF.ll2ne ![(5 : ℝ), 25] ![0, 10] 0 with ha
  set y : X := ![CF.ll2ne ![0, 0] ![0, 10] 0, CF.ll2ne ![0, 0] ![0, 10] 1, 0, 0] with hy
  set x : X := ![0, (b + d) / 2, 0, 0] with hx
  have hneg : CF.sind (-5) = -CF.sind 5 := by
    unfold CF.sind
    rw [← Real.sin_neg]
    congr 1
    ring
  have hcos : CF.cosd (-5) = CF.cosd 5 := by
    unfold CF.cosd
    rw [← Real.cos_neg]
    congr 1
    ring
  have hnr : CF.nrad (-5) = CF.nrad 5 := by
    unfold CF.nrad
    rw [hneg]
    ring_nf
  have hwx : BBox.Box.within
      ⟨(CF.ll2ne ![(5 : ℝ), 25] ![0, 10] 0, CF.ll2ne ![(5 : ℝ), 25] ![0, 10] 1),
        (CF.ll2ne ![(-5 : ℝ), 25] ![0, 10] 0, CF.ll2ne ![(-5 : ℝ), 25] ![0, 10] 1),
        (CF.ll2ne ![(-5 : ℝ), 15] ![0, 10] 0, CF.ll2ne ![(-5 : ℝ), 15] ![0, 10] 1),
        (CF.ll2ne ![(5 : ℝ), 15] ![0, 10] 0, CF.ll2ne ![(5 : ℝ), 15] ![0, 10] 1)⟩ (x 0, x 1) = true := by
    have e1 : CF.ll2ne ![(-5 : ℝ), 25] ![0, 10] 0 = -a := by
      rw [ha, north, north, hneg, hnr]; ring
    have e2 : CF.ll2ne ![(-5 : ℝ), 15] ![0, 10] 0 = -a := by
      rw [ha, north, north, hneg, hnr]; ring
    have e3 : CF.ll2ne ![(5 : ℝ), 15] ![0, 10] 0 = a := by rw [ha, north, north]
    have e4 : CF.ll2ne ![(-5 : ℝ), 25] ![0, 10] 1 = b := by rw [hb, east, east, hcos, hnr]
    have e5 : CF.ll2ne ![(-5 : ℝ), 15] ![0, 10] 1 = d := by rw [hd, east, east, hcos, hnr]
    rw [e1, e2, e3, e4, e5]
    have ha0 : 0 < a := by
      rw [ha, north]
      exact mul_pos (mul_pos (nrad_pos 5) (by unfold CF.e2; norm_num))
        (sind_pos (by norm_num) (by norm_num))
    refine trapezium ha0 ha0 ?_
    rw [hd, east, east]
    refine mul_lt_mul_of_pos_left ?_ (mul_pos (nrad_pos 5) (cosd_pos (by norm_num) (by norm_num)))
    unfold CF.sind
    have hpi := Real.pi_pos
    apply Real.sin_lt_sin_of_lt_of_le_pi_div_two <;> nlinarith
  have hwy := exOut
  refine ⟨x, y, by ext i; fin_cases i <;> rfl, ?_⟩
  have h := (C121_missed exOpts exEast 0 ⟨⟨[⟨x, 1 / 2⟩, ⟨y, 1 / 2⟩], 1, false⟩, ![0, 10], wide, plane⟩ 1
    (1 / 2) (fun g => g.w * (if BBox.Box.within
      ⟨(CF.ll2ne ![(5 : ℝ), 25] ![0, 10] 0, CF.ll2ne ![(5 : ℝ), 25] ![0, 10] 1),
        (CF.ll2ne ![(-5 : ℝ), 25] ![0, 10] 0, CF.ll2ne ![(-5 : ℝ), 25] ![0, 10] 1),
        (CF.ll2ne ![(-5 : ℝ), 15] ![0, 10] 0, CF.ll2ne ![(-5 : ℝ), 15] ![0, 10] 1),
        (CF.ll2ne ![(5 : ℝ), 15] ![0, 10] 0, CF.ll2ne ![(5 : ℝ), 15] ![0, 10] 1)⟩
        (g.x 0, g.x 1) = true then 1 else 0))
    (fun g _ => rfl) (by
      have hwy' : _ = false := hwy
      simp only [List.map_cons, List.map_nil, List.sum_cons, List.sum_nil, hwx, if_true]
      erw [hwy]
      simp)).1 (by norm_num)
  rw [h.1]
  simp only [List.map_cons, List.map_nil, hwx, if_true]
  erw [hwy]
  norm_num

end Verif.Particles
