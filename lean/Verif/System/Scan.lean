import Verif.System.Posterior
import Verif.Hyp.Split
import Verif.Tracker.Closed

/-! # A whole scan against the exact Bayes posterior of all targets (C73) -/

namespace Verif.System

open MeasureTheory
open Verif.Lap (XR)
open Verif.Murty (PickOk)
open Verif.Hyp
open Verif.Tracker
open Verif.Kalman
open Verif.GM (SortOk)
open Verif.Cluster (Cl)

/-! ## The exact posterior of all targets -/

/-- What a target can have done in a scan, with its state in `A` if it exists.  It can only have
caused the reports it is linked to.  States of the target at address `a` are in the local frame with
origin `o a`. -/
noncomputable def scanMass (s : PSens) (scan : List (Rep Rpt)) (link : Nat → Nat → Prop)
    (o : Nat → LL) (t : Nat × Tgt Pdf) (A : Set (Fin 4 → ℝ)) : Fate scan.length → ℝ
  | .report j => open Classical in if link t.1 j then
      t.2.r * (detected (s.pdDet t.1 (rLocal (o t.1) (scan.get j).val))
        (rLocal (o t.1) (scan.get j).val) (cLocal (o t.1) t.2.pdf.mix.c) A).toReal else 0
  | .missed => t.2.r * (undetected (s.pdMiss t.1) (cLocal (o t.1) t.2.pdf.mix.c) A).toReal
  | .absent => 1 - t.2.r

/-- The posterior probability that the target at address `a` exists and has its state in `A`: the
weight of the joint events of all targets `l` in which it does, over the weight of all joint
events. -/
noncomputable def scanPosterior (s : PSens) (scan : List (Rep Rpt)) (link : Nat → Nat → Prop)
    (o : Nat → LL) (l : List (Nat × Tgt Pdf)) (a : Nat) (A : Set (Fin 4 → ℝ)) : ℝ :=
  (evidence (fun k : Fin l.length => scanMass s scan link o (l.get k)
    (open Classical in if (l.get k).1 = a then A else Set.univ))
    fun e => ∃ k, (l.get k).1 = a ∧ e k ≠ .absent) /
  evidence (fun k : Fin l.length => scanMass s scan link o (l.get k) Set.univ) fun _ => True

/-- The posterior probability that no target caused report `j`. -/
noncomputable def scanUnclaimed (s : PSens) (scan : List (Rep Rpt)) (link : Nat → Nat → Prop)
    (o : Nat → LL) (l : List (Nat × Tgt Pdf)) (j : Nat) : ℝ :=
  (evidence (fun k : Fin l.length => scanMass s scan link o (l.get k) Set.univ)
    fun e => ∀ k i, e k = .report i → i.val ≠ j) /
  evidence (fun k : Fin l.length => scanMass s scan link o (l.get k) Set.univ) fun _ => True

theorem scanMass_nonneg (s : PSens) (scan : List (Rep Rpt)) (link : Nat → Nat → Prop)
    (o : Nat → LL) {t : Nat × Tgt Pdf} (h0 : 0 ≤ t.2.r) (h1 : t.2.r ≤ 1) (A : Set (Fin 4 → ℝ))
    (f : Fate scan.length) : 0 ≤ scanMass s scan link o t A f := by
  cases f with
  | report j =>
    simp only [scanMass]
    split
    · exact mul_nonneg h0 ENNReal.toReal_nonneg
    · exact le_refl _
  | missed => exact mul_nonneg h0 ENNReal.toReal_nonneg
  | absent => exact sub_nonneg.2 h1

/-- A cluster within all targets. -/
structure Within (scan : List (Rep Rpt)) (link : Nat → Nat → Prop) (o : Nat → LL)
    (l tl : List (Nat × Tgt Pdf)) (rl : List Rpt) (J : List Nat) (oc : LL) : Prop where
  keys : (l.map (·.1)).Nodup
  tkeys : (tl.map (·.1)).Nodup
  r : ∀ x ∈ l, 0 ≤ x.2.r ∧ x.2.r ≤ 1
  mem : ∀ x ∈ tl, o x.1 = oc ∧ ∃ t, (x.1, t) ∈ l ∧ x.2.r = t.r ∧ x.2.pdf.mix.c = cLocal oc t.pdf.mix.c
  nodup : J.Nodup
  len : J.length = rl.length
  lt : ∀ j ∈ J, j < scan.length
  rep : ∀ (k : Nat) j z, J[k]? = some j → scan[j]? = some z → rl[k]? = some (rLocal oc z.val)
  own : ∀ x ∈ tl, ∀ j, link x.1 j ↔ j ∈ J
  other : ∀ x ∈ l, x.1 ∉ tl.map (·.1) → ∀ j ∈ J, ¬ link x.1 j

theorem within_eq {s : PSens} {scan : List (Rep Rpt)} {link : Nat → Nat → Prop} {o : Nat → LL}
    {l tl : List (Nat × Tgt Pdf)} {rl : List Rpt} {J : List Nat} {oc : LL}
    (h : Within scan link o l tl rl J oc) (hfree : ∀ x ∈ l, ∃ f : Fate scan.length, f.Free ∧
      0 < scanMass s scan link o x Set.univ f) :
    (∀ i A, posterior s tl rl i A = scanPosterior s scan link o l (tl.get i).1 A) ∧
    ∀ j : Fin rl.length, unclaimed s tl rl j =
      scanUnclaimed s scan link o l (J[j.val]'(by rw [h.len]; exact j.2)) := by
  classical
  have hidx : ∀ i : Fin tl.length, ∃ k : Fin l.length, (l.get k).1 = (tl.get i).1 ∧
      (tl.get i).2.r = (l.get k).2.r ∧
      (tl.get i).2.pdf.mix.c = cLocal oc (l.get k).2.pdf.mix.c := by
    intro i
    obtain ⟨_, t, h1, h2, h3⟩ := h.mem (tl.get i) (List.get_mem _ _)
    obtain ⟨k, hk⟩ := List.get_of_mem h1
    exact ⟨k, by rw [hk], by rw [hk]; exact h2, by rw [hk]; exact h3⟩
  choose σ hσ1 hσ2 hσ3 using hidx
  have hinjl : ∀ k k' : Fin l.length, (l.get k).1 = (l.get k').1 → k = k' := by
    intro k k' e
    have := List.nodup_iff_injective_get.1 h.keys
    have e' : (l.map (·.1)).get ⟨k.val, by rw [List.length_map]; exact k.2⟩ =
        (l.map (·.1)).get ⟨k'.val, by rw [List.length_map]; exact k'.2⟩ := by
      simpa using e
    have := this e'
    exact Fin.ext (by simpa using this)
  have hinjt : ∀ k k' : Fin tl.length, (tl.get k).1 = (tl.get k').1 → k = k' := by
    intro k k' e
    have := List.nodup_iff_injective_get.1 h.tkeys
    have e' : (tl.map (·.1)).get ⟨k.val, by rw [List.length_map]; exact k.2⟩ =
        (tl.map (·.1)).get ⟨k'.val, by rw [List.length_map]; exact k'.2⟩ := by
      simpa using e
    have := this e'
    exact Fin.ext (by simpa using this)
  let ρ : Fin rl.length → Fin scan.length := fun j =>
    ⟨J[j.val]'(by rw [h.len]; exact j.2), h.lt _ (List.getElem_mem _)⟩
  have hρ : ∀ j ∈ J, ∃ i, (ρ i).val = j := by
    intro j hj
    obtain ⟨k, hk, rfl⟩ := List.mem_iff_getElem.1 hj
    exact ⟨⟨k, by rw [← h.len]; exact hk⟩, rfl⟩
  have hrep : ∀ j, rl.get j = rLocal oc (scan.get (ρ j)).val := by
    intro j
    have h1 := h.rep j.val _ (scan.get (ρ j))
      (List.getElem?_eq_getElem (by rw [h.len]; exact j.2)) (List.getElem?_eq_getElem (ρ j).2)
    rw [List.getElem?_eq_getElem j.2] at h1
    exact Option.some.inj h1
  have hout : ∀ k : Fin l.length, k ∉ Set.range σ → (l.get k).1 ∉ tl.map (·.1) := by
    intro k hk hm
    obtain ⟨x, hx, e⟩ := List.mem_map.1 hm
    obtain ⟨i, rfl⟩ := List.get_of_mem hx
    exact hk ⟨i, hinjl _ _ ((hσ1 i).trans e)⟩
  have apart : ∀ A : Fin l.length → Set (Fin 4 → ℝ),
      Apart (fun k => scanMass s scan link o (l.get k) (A k)) σ ρ := by
    intro A
    refine ⟨?_, ?_, ?_, ?_⟩
    · intro i i' e
      apply hinjt
      rw [← hσ1, ← hσ1, e]
    · intro j j' e
      have := congrArg Fin.val e
      exact Fin.ext ((h.nodup.getElem_inj_iff).1 this)
    · intro i j hj
      refine if_neg fun hl => hj ?_
      rw [hσ1] at hl
      obtain ⟨m, hm⟩ := hρ j.val ((h.own _ (List.get_mem _ _) _).1 hl)
      exact ⟨m, Fin.ext hm⟩
    · intro k hk j
      exact if_neg (h.other _ (List.get_mem _ _) (hout k hk) _ (List.getElem_mem _))
  have hmass : ∀ i (A : Set (Fin 4 → ℝ)) (f : Fate rl.length),
      scanMass s scan link o (l.get (σ i)) A (f.map ρ) = fateMass s rl (tl.get i) A f := by
    intro i A f
    have ho : o (l.get (σ i)).1 = oc := by
      rw [hσ1]; exact (h.mem _ (List.get_mem _ _)).1
    cases f with
    | report j =>
      simp only [Fate.map, scanMass, fateMass]
      rw [if_pos (by
        rw [hσ1]
        exact (h.own _ (List.get_mem _ _) _).2 (List.getElem_mem _)), ho, ← hrep j, ← hσ3 i,
        ← hσ2 i, hσ1 i]
    | missed =>
      simp only [Fate.map, scanMass, fateMass]
      rw [ho, ← hσ3 i, ← hσ2 i, hσ1 i]
    | absent =>
      simp only [Fate.map, scanMass, fateMass]
      rw [← hσ2 i]
  have hW : ∀ k (f : Fate scan.length), 0 ≤ scanMass s scan link o (l.get k) Set.univ f := fun k f =>
    scanMass_nonneg s scan link o (h.r _ (List.get_mem _ _)).1 (h.r _ (List.get_mem _ _)).2 _ f
  have h0 : ∀ k : Fin l.length, ∃ f : Fate scan.length, f.Free ∧
      0 < scanMass s scan link o (l.get k) Set.univ f := fun k => hfree _ (List.get_mem _ _)
  refine ⟨fun i A => ?_, fun j => ?_⟩
  · unfold posterior scanPosterior
    rw [bayes_split (apart fun _ => Set.univ) hW h0
      (V := fun k : Fin l.length => scanMass s scan link o (l.get k)
        (if (l.get k).1 = (tl.get i).1 then A else Set.univ)) ?_ (apart _)
      (fun e => e i ≠ .absent) _ ?_]
    · simp only [hmass]
      congr 3
      funext k
      congr 1
      by_cases hk : k = i
      · subst hk
        rw [if_pos rfl, if_pos (hσ1 k)]
      · rw [if_neg hk, if_neg]
        rw [hσ1]
        exact fun e => hk (hinjt _ _ e)
    · intro k hk
      have : (l.get k).1 ≠ (tl.get i).1 := fun e => hk ⟨i, hinjl _ _ ((hσ1 i).trans e.symm)⟩
      simp only [if_neg this]
    · intro e e' he _
      constructor
      · rintro ⟨k, h1, h2⟩ h3
        have : k = σ i := hinjl _ _ (h1.trans (hσ1 i).symm)
        subst this
        rw [he, h3] at h2
        exact h2 rfl
      · intro h1
        refine ⟨σ i, hσ1 i, fun h2 => h1 ?_⟩
        rw [he] at h2
        cases hf : e' i <;> rw [hf] at h2 <;> simp only [Fate.map, reduceCtorEq] at h2
  · unfold unclaimed scanUnclaimed
    rw [bayes_split (apart fun _ => Set.univ) hW h0
      (V := fun k : Fin l.length => scanMass s scan link o (l.get k) Set.univ) (fun _ _ => rfl)
      (apart _) (fun e => ∀ i, e i ≠ .report j) _ ?_]
    · simp only [hmass]
    · intro e e' he hfree
      constructor
      · intro h1 i h2
        refine h1 (σ i) (ρ j) ?_ rfl
        rw [he, h2]
        rfl
      · intro h1 k m hk hm
        have hm' : m = ρ j := Fin.ext hm
        by_cases hr : k ∈ Set.range σ
        · obtain ⟨i, rfl⟩ := hr
          rw [he] at hk
          obtain ⟨j', h2, h3⟩ := Fate.map_report hk
          rw [hm'] at h3
          have : j' = j := (apart fun _ => Set.univ).ρ_inj h3
          exact h1 i (by rw [h2, this])
        · exact hfree k hr j (by rw [hk, hm'])

/-! ## From a call of `correct` to its clusters -/

/-- The live targets with their addresses. -/
def live (st : St Pdf) : List (Nat × Tgt Pdf) :=
  st.targets.filterMap fun a => (st.heap a).map fun t => (a, t)

theorem mem_live {st : St Pdf} (hl : ∀ a, (∃ t, st.heap a = some t) ↔ a ∈ st.targets)
    (x : Nat × Tgt Pdf) : x ∈ live st ↔ st.heap x.1 = some x.2 := by
  unfold live
  rw [List.mem_filterMap]
  constructor
  · rintro ⟨a, _, h⟩
    obtain ⟨t, ht, rfl⟩ := Option.map_eq_some_iff.1 h
    exact ht
  · intro h
    exact ⟨x.1, (hl x.1).1 ⟨_, h⟩, by rw [h]; rfl⟩

theorem live_keys {st : St Pdf} (hn : st.targets.Nodup) : ((live st).map (·.1)).Nodup := by
  unfold live
  rw [List.map_filterMap]
  refine hn.filterMap ?_
  intro a a' b h1 h2
  simp only [Option.map_map, Option.mem_def, Option.map_eq_some_iff, Function.comp] at h1 h2
  obtain ⟨_, _, rfl⟩ := h1
  obtain ⟨_, _, h⟩ := h2
  exact h.symm

/-- Mean position of the target at an address. -/
noncomputable def posOf (st : St Pdf) (a : Nat) : LL := (st.heap a).elim 0 fun t => pos t.pdf

/-- Existence probability of the target at an address. -/
noncomputable def rOf (st : St Pdf) (a : Nat) : ℝ := (st.heap a).elim 0 Tgt.r

/-- `idle` for the target at an address. -/
noncomputable def idleOf (s : PSens) (st : St Pdf) (a : Nat) : ℝ :=
  (st.heap a).elim 0 fun t => idle s (a, t)

/-- The local origin of the targets `C` and the reports `J`: the average position. -/
noncomputable def originOf (st : St Pdf) (scan : List (Rep Rpt)) (dflt : Rep Rpt) (C J : List Nat) :
    LL := fun x =>
  ((J.map fun j => (scan.getD j dflt).val.1.x x).sum + (C.map fun a => posOf st a x).sum) /
    ((J.length : ℝ) + C.length)

theorem sum_coord (l : List LL) (x : Fin 2) : l.sum x = (l.map fun p => p x).sum := by
  induction l with
  | nil => rfl
  | cons p l ih => rw [List.sum_cons, Pi.add_apply, ih, List.map_cons, List.sum_cons]

theorem originOf_eq (st : St Pdf) (scan : List (Rep Rpt)) (dflt : Rep Rpt) (C J : List Nat) :
    originOf st scan dflt C J =
      center (J.map (fun j => (scan.getD j dflt).val.1.x) ++ C.map (posOf st)) := by
  funext x
  unfold originOf center
  rw [Pi.smul_apply, sum_coord, List.map_append, List.sum_append, List.map_map, List.map_map,
    List.length_append, List.length_map, List.length_map, smul_eq_mul, Nat.cast_add, one_div,
    div_eq_inv_mul]
  rfl

theorem idle_free {s : PSens} (hs : SensOk s) {scan : List (Rep Rpt)} {link : Nat → Nat → Prop}
    {o : Nat → LL} {mx : Nat} {x : Nat × Tgt Pdf} (h : Fine mx x.2) (hi : 0 < idle s x) :
    ∃ f : Fate scan.length, f.Free ∧ 0 < scanMass s scan link o x Set.univ f := by
  rw [← idle_toLocal hs h (o x.1)] at hi
  rcases lt_max_iff.1 hi with h | h
  · exact ⟨.absent, Or.inl rfl, h⟩
  · exact ⟨.missed, Or.inr rfl, h⟩

/-- A cluster that is computed has at most thirty targets. -/
theorem compute_limit {k : Opts} {prm : Params} {s : PSens} (hs : SensOk s)
    {pick : ∀ r c, List (Murty.Node r c) → Nat} (hp : ∀ r c, PickOk (pick r c)) {fuel : Nat}
    {wt : ℚ → ℝ} {ts : List (Nat × Tgt Pdf)} {rs : List Rpt} {v : Comp Pdf Rpt}
    (hts : ∀ x ∈ ts, Fine k.mx x.2)
    (e : compute (env k) (sensor k s) prm pick fuel wt ts rs = some v) : ts.length ≤ 30 := by
  by_contra hc
  rw [compute_eq rfl rfl rfl] at e
  set o := (env k).center (rs.map (env k).rpos ++ ts.map fun t => (env k).pos t.2.pdf) with ho
  set rl := rs.map ((env k).rLocal o) with hrl
  set tl := ts.map fun t => (t.1, forth (env k) o t.2) with htl
  have hlen : tl.length = ts.length := List.length_map _
  have htl' : ∀ x ∈ tl, Fine k.mx x.2 := by
    intro x hx
    obtain ⟨y, hy, rfl⟩ := List.mem_map.1 hx
    obtain ⟨h1, h2, h3⟩ := hts y hy
    refine ⟨h1, good_toLocal h2 _, ?_⟩
    change cLocal o y.2.pdf.mix.c ≠ []
    simpa [cLocal] using h3
  rw [if_neg (by omega), cluster_target_limit _ _ _ (by omega) (hp _ _)] at e
  · cases e
  · intro i' j'
    have hi' := htl' (tl.get i') (List.get_mem _ _)
    exact lg_isC hs (mul_nonneg hi'.1.1 (correctMix_eta hi'.2.1 (hs.det _ _) _).1)
  · intro i'
    have hi' := htl' (tl.get i') (List.get_mem _ _)
    have := (missedEta_bounds (hs.miss (tl.get i').1) hi'.2.1.cmp).2
    rw [hi'.2.1.sum.resolve_left hi'.2.2] at this
    exact lg_isC hs (mul_nonneg hi'.1.1 (by linarith))
  · intro i'
    change XR.IsFin (if _ then _ else _)
    split
    · rename_i hr
      exact hs.pos _ (by linarith)
    · exact ⟨_, rfl⟩

/-- The reports with a likelihood ratio of at most 1e-8 are ignored (`gm.hpp:46`): what this can
change, for `n` reports and the targets `C`. -/
noncomputable def cutErr (s : PSens) (st : St Pdf) (n : Nat) (C : List Nat) : ℝ :=
  (C.map fun a => 1 + (n : ℝ) * (rOf st a / idleOf s st a / 100000000)).prod - 1

/-- Errors up to `δ` in the logarithms: what this can change, for `m` targets. -/
noncomputable def logErr (m : Nat) (δ : ℝ) : ℝ := Real.exp (2 * m * δ) - 1

/-- `C72_cluster` for one of the clusters of a scan, against the posterior of all targets. -/
theorem cluster_scan {k : Opts} (hk : SortOk k.srt) (prm : Params) {s : PSens} (hs : SensOk s)
    {δ τ : ℝ} (hlog : ∀ x, 0 ≤ x → Near δ (s.lg x) x) (hτ0 : 0 ≤ τ)
    (hτ : ∀ a i j, |s.pdMiss a i - s.pdMiss a j| ≤ τ * (1 - s.pdMiss a j))
    {pick : ∀ r c, List (Murty.Node r c) → Nat} (hp : ∀ r c, PickOk (pick r c)) {B : ℚ}
    {scan : List (Rep Rpt)} {dflt : Rep Rpt} {fuel : Nat} {st : St Pdf}
    (hi : Ok (env k) st fun _ => False)
    (hts : ∀ a t, st.heap a = some t → Fine k.mx t ∧ 0 < idle s (a, t) ∧ δ - Real.log (idle s (a, t)) ≤ B)
    {cls : List Cl} {s1 : St Pdf} {rcid : Nat → Nat}
    (hprep : prepare (env k) (sensor k s) scan st = some (cls, s1, rcid)) {o : Nat → LL}
    (ho : ∀ c ∈ cls, ∀ a ∈ c.targets, o a = originOf st scan dflt c.targets c.reports)
    {c : Cl} (hc : c ∈ cls) (hne : c.targets ≠ []) {v : Comp Pdf Rpt}
    (hv : compOf (env k) (sensor k s) prm pick fuel ew s1.heap (initReps scan rcid dflt) c =
      some v) :
    ∃ (ε : ℝ) (f : Nat → Tgt Pdf) (D : Nat → ℝ), c.targets.length ≤ 30 ∧
      (∀ (m a : Nat), c.targets[m]? = some a → v.ts[m]? = some (back (env k) (f a)) ∧
        (∀ A, |(f a).r * (lawOf (f a).pdf.mix A).toReal -
          scanPosterior s scan (Linked (env k) scan st) o (live st) a A| ≤
          (c.reports.length + 1) * ε + logErr c.targets.length δ +
          cutErr s st c.reports.length c.targets + τ +
          (1 / 1000000 + D a)) ∧
        ∃ t, st.heap a = some t ∧
          DropOk k (c.reports.length + 1) t.pdf.mix.c.length (f a).pdf.mix.c (f a).r (D a)) ∧
      (∀ (m j : Nat), c.reports[m]? = some j → ∃ b, v.rB[m]? = some (some b) ∧
        |b - scanUnclaimed s scan (Linked (env k) scan st) o (live st) j| ≤
          ε + logErr c.targets.length δ + cutErr s st c.reports.length c.targets) ∧
      0 < v.n ∧
      ε ≤ 2 * spur c.targets.length B + ((c.reports.length + 2 : Nat) : ℝ) ^ c.targets.length / v.n ∧
      ((v.n : ℝ) < prm.nhypMax → ε ≤ 2 * spur c.targets.length B +
        ((c.reports.length + 2 : Nat) : ℝ) ^ c.targets.length * max 0 prm.wlim) := by
  have hz : ∀ z ∈ scan, ((env k).rbox z.val).Valid := fun z _ => (k.rbox z.val).2.1
  have hfov : (sensor k s).fovBox.Valid := hs.fov
  obtain ⟨cls', s1', rcid', p1, p2, p3, p4, p5, p6, p7, p8, p9, p10⟩ :=
    prepare_ok (env_box k) hfov hz hi
  rw [hprep, Option.some.injEq, Prod.mk.injEq, Prod.mk.injEq] at p1
  obtain ⟨rfl, rfl, rfl⟩ := p1
  have hclosed := prepare_closed (env_box k) hfov hz hi hprep c hc
  unfold compOf at hv
  cases hr : readAll s1.heap c.targets with
  | none => simp [hr] at hv
  | some ts =>
    simp only [hr] at hv
    obtain ⟨hmap, hheap⟩ := readAll_spec hr
    set rs := c.reports.map fun j => (initReps scan rcid dflt j).val with hrs
    have hold : ∀ x ∈ ts, ∃ t, st.heap x.1 = some t ∧ x.2.r = t.r ∧ x.2.pdf = t.pdf := by
      intro x hx
      obtain ⟨t, h1, _, h2, h3, _⟩ := p10 _ _ (hheap x hx)
      exact ⟨t, h1, h2, h3⟩
    have hts' : ∀ x ∈ ts, Fine k.mx x.2 ∧ 0 < idle s x ∧ δ - Real.log (idle s x) ≤ B := by
      intro x hx
      obtain ⟨t, h1, h2, h3⟩ := hold x hx
      have : idle s x = idle s (x.1, t) := by unfold idle; rw [h2, h3]
      rw [this]
      unfold Fine
      rw [h2, h3]
      exact hts _ _ h1
    set oc := center (rs.map (fun z => z.1.x) ++ ts.map fun t => pos t.2.pdf) with hoc
    set tl := ts.map fun t => (t.1, ({ t.2 with pdf := toLocal oc t.2.pdf } : Tgt Pdf)) with htl
    set rl := rs.map (rLocal oc) with hrl
    have hkeys : tl.map (·.1) = c.targets := by
      rw [htl, List.map_map]; exact hmap
    have hlen : tl.length = c.targets.length := by
      rw [← List.length_map (f := fun x : Nat × Tgt Pdf => x.1), hkeys]
    have hrlen : rl.length = c.reports.length := by rw [hrl, hrs, List.length_map, List.length_map]
    have hoc' : oc = originOf st scan dflt c.targets c.reports := by
      rw [hoc, originOf_eq, hrs, List.map_map, ← hmap, List.map_map]
      congr 2
      refine List.map_congr_left fun x hx => ?_
      obtain ⟨t, h1, _, h3⟩ := hold x hx
      simp only [Function.comp, posOf, h1, Option.elim, h3]
    have h30 : tl.length ≤ 30 := by
      rw [htl, List.length_map]
      exact compute_limit hs hp (fun x hx => (hts' x hx).1) hv
    have h0 : 0 < tl.length := by
      rw [hlen]; exact List.length_pos_iff.2 hne
    obtain ⟨F, v', ε, cc, dd, g1, g2, g3, g4, ⟨b, g5, g6⟩, g7, g8, g9⟩ :=
      C72_cluster hk prm hs hlog hτ0 hτ hp hts' h0 h30 hoc htl hrl
    have hvv : v' = v := by
      have h1 := compute_mono (le_max_left fuel F) hv
      rw [g1 _ (le_max_right fuel F)] at h1
      exact Option.some.inj h1
    subst hvv
    have hw : Within scan (Linked (env k) scan st) o (live st) tl rl c.reports oc := by
      refine ⟨live_keys hi.nodup, ?_, ?_, ?_, ?_, hrlen.symm, ?_, ?_, ?_, ?_⟩
      · rw [hkeys]
        exact (List.nodup_flatMap.1 p2.tnd).1 c hc
      · intro x hx
        rw [mem_live hi.live] at hx
        exact (hts _ _ hx).1.1
      · intro x hx
        obtain ⟨y, hy, rfl⟩ := List.mem_map.1 hx
        obtain ⟨t, h1, h2, h3⟩ := hold y hy
        refine ⟨?_, t, (mem_live hi.live _).2 h1, h2, ?_⟩
        · rw [hoc']
          refine ho c hc _ ?_
          have h := List.mem_map_of_mem (f := fun x : Nat × Tgt Pdf => x.1) hy
          rw [hmap] at h
          exact h
        · show cLocal oc y.2.pdf.mix.c = _
          rw [h3]
      · exact (List.nodup_flatMap.1 p2.rnd).1 c hc
      · intro j hj
        exact List.mem_range.1 (p6.mem_iff.1 (List.mem_flatMap.2 ⟨c, hc, hj⟩))
      · intro m j z hm hz
        rw [hrl, hrs, List.getElem?_map, List.getElem?_map, hm]
        simp only [Option.map_some, initReps, List.getD_eq_getElem?_getD, hz, Option.getD_some]
      · intro x hx j
        have : x.1 ∈ c.targets := by rw [← hkeys]; exact List.mem_map_of_mem hx
        exact ((hclosed _ this).1 j).symm
      · intro x hx hn j hj hlk
        rw [hkeys] at hn
        apply hn
        obtain ⟨a0, ha0⟩ := List.exists_mem_of_ne_nil _ hne
        exact ((hclosed a0 ha0).2 x.1).2 (Or.inr ⟨j, ((hclosed a0 ha0).1 j).1 hj, hlk⟩)
    obtain ⟨w1, w2⟩ := within_eq (s := s) hw fun x hx => by
      rw [mem_live hi.live] at hx
      exact idle_free hs (hts _ _ hx).1 (hts _ _ hx).2.1
    have hprod : ((∏ i, (1 + rl.length * ((tl.get i).2.r / idle s (tl.get i) / 100000000))) - 1) =
        cutErr s st c.reports.length c.targets := by
      unfold cutErr
      congr 1
      rw [← List.prod_ofFn, hrlen, ← hmap, List.map_map]
      congr 1
      apply List.ext_getElem
      · simp [htl]
      · intro m h1 h2
        have hm : m < ts.length := by simpa using h2
        obtain ⟨t, q1, q2, q3⟩ := hold ts[m] (List.getElem_mem _)
        have e1 := idle_toLocal hs (hts' ts[m] (List.getElem_mem _)).1 oc
        have e2 : idle s ts[m] = idle s (ts[m].1, t) := by unfold idle; rw [q2, q3]
        rw [e2] at e1
        have e3 : tl[m]'(by rw [htl, List.length_map]; exact hm) = (ts[m].1,
            ({ ts[m].2 with pdf := toLocal oc ts[m].2.pdf } : Tgt Pdf)) := by simp [htl]
        simp only [List.getElem_ofFn, List.get_eq_getElem, List.getElem_map, Function.comp, rOf,
          idleOf, q1, Option.elim]
        rw [e3, e1, q2]
    rw [hprod] at g3 g6
    rw [hrlen, hlen] at g8 g9
    have hidx : ∀ a, ∃ i : Fin tl.length, a ∈ c.targets → (tl.get i).1 = a := by
      intro a
      by_cases ha : a ∈ c.targets
      · rw [← hkeys] at ha
        obtain ⟨x, hx, rfl⟩ := List.mem_map.1 ha
        obtain ⟨i, rfl⟩ := List.get_of_mem hx
        exact ⟨i, fun _ => rfl⟩
      · exact ⟨⟨0, h0⟩, fun h => absurd h ha⟩
    choose ix hix using hidx
    refine ⟨ε, fun a => cc (ix a), fun a => dd (ix a), by rw [← hlen]; exact h30, ?_, ?_, g7, g8, g9⟩
    · intro m a hm
      have ha : a ∈ c.targets := List.mem_of_getElem? hm
      have hmi : m = (ix a).val := by
        have h1 : c.targets[(ix a).val]? = some a := by
          rw [← hkeys, List.getElem?_map, List.getElem?_eq_getElem (ix a).2]
          exact congrArg some (hix a ha)
        have hnd := (List.nodup_flatMap.1 p2.tnd).1 c hc
        have hlt := (List.getElem?_eq_some_iff.1 hm).1
        exact (List.getElem?_inj hlt hnd).1 (hm.trans h1.symm)
      refine ⟨?_, ?_, ?_⟩
      · rw [g2, List.getElem?_ofFn, hmi, dif_pos (ix a).2]
      · intro A
        have := g3 (ix a) A
        rw [w1, hix a ha, hrlen, hlen] at this
        exact this
      · have h := g4 (ix a)
        obtain ⟨y, hy, h1⟩ := List.mem_map.1 (List.get_mem tl (ix a))
        obtain ⟨t, q1, _, q3⟩ := hold y hy
        have hya : y.1 = a := by rw [← hix a ha, ← h1]
        refine ⟨t, hya ▸ q1, ?_⟩
        have hlc : (tl.get (ix a)).2.pdf.mix.c.length = t.pdf.mix.c.length := by
          rw [← h1]
          show (cLocal oc y.2.pdf.mix.c).length = _
          rw [q3]
          simp [cLocal]
        rw [hrlen, hlc] at h
        exact h
    · intro m j hm
      have hlt := (List.getElem?_eq_some_iff.1 hm).1
      have hlt' : m < rl.length := by rw [hrlen]; exact hlt
      refine ⟨b ⟨m, hlt'⟩, ?_, ?_⟩
      · rw [g5, List.getElem?_ofFn, dif_pos hlt']
      · have := g6 ⟨m, hlt'⟩
        rw [w2] at this
        have hj : c.reports[m] = j := (List.getElem?_eq_some_iff.1 hm).2
        rw [hlen] at this
        rw [← hj]
        exact this

/-- A report that no target is linked to is not caused by a target. -/
theorem scanUnclaimed_free {s : PSens} {scan : List (Rep Rpt)} {link : Nat → Nat → Prop}
    {o : Nat → LL} {l : List (Nat × Tgt Pdf)} (hr : ∀ x ∈ l, 0 ≤ x.2.r ∧ x.2.r ≤ 1) {j : Nat}
    (hfree : ∀ x ∈ l, ∃ f : Fate scan.length, f.Free ∧ 0 < scanMass s scan link o x Set.univ f)
    (hj : j < scan.length) (h : ∀ x ∈ l, ¬ link x.1 j) : scanUnclaimed s scan link o l j = 1 := by
  have apart : Apart (fun k : Fin l.length => scanMass s scan link o (l.get k) Set.univ)
      (fun i : Fin 0 => i.elim0) (fun _ : Fin 1 => (⟨j, hj⟩ : Fin scan.length)) :=
    ⟨fun i => i.elim0, fun _ _ _ => Subsingleton.elim _ _, fun i => i.elim0,
      fun i _ _ => if_neg (h _ (List.get_mem _ _))⟩
  have hpos : 0 < evidence (fun k : Fin l.length => scanMass s scan link o (l.get k) Set.univ)
      fun _ => True := by
    refine evidence_pos (fun k f => ?_) fun k => ?_
    · obtain ⟨h0, h1⟩ := hr (l.get k) (List.get_mem _ _)
      exact scanMass_nonneg s scan link o h0 h1 _ f
    · exact hfree _ (List.get_mem _ _)
  unfold scanUnclaimed
  rw [div_eq_one_iff_eq hpos.ne', evidence_split apart (fun _ => True) _ ?_,
    evidence_split apart (fun _ => True) (fun _ => True) fun _ _ _ _ => Iff.rfl]
  intro e e' _ hfr
  refine ⟨fun _ => trivial, fun _ k i hk hi => ?_⟩
  refine hfr k (fun ⟨i, _⟩ => i.elim0) 0 ?_
  rw [hk]
  exact congrArg _ (Fin.ext hi)

/-- **C73** A scan as a whole against the exact posterior of all targets.

Take any reachable state and a call of `correct` that is defined.  The specification enumerates all
joint events of all live targets and all reports of the scan, where a target can have caused a
report only if the two are connected by a chain of touching boxes (`Linked`).  It knows nothing of
clusters; only the local frames `o`, in which states are expressed, differ between the connected
components.

For every gated target `a`, the result `f` in the local frame has: existence probability times the
mass of any set `A` of states in the new density is near the posterior probability that `a` exists
with its state in `A`.  The bound depends on the component of `a` only: its targets `C`, its reports
`J` and the number `n` of hypotheses drawn for it.  The target stays, with `f` taken back to
degrees, if that is viable; otherwise it is removed.

For every report, the birth probability `rB` is near the posterior probability that no target caused
it; it is exactly that if no target is linked to the report. -/
theorem C73_scan {k : Opts} (hk : OptsOk k) {prm : Params} (hB0 : 0 ≤ prm.rBmax)
    (hB1 : prm.rBmax ≤ 1) {calls : List (Call Pdf Rpt)} (hcalls : ∀ c ∈ calls, SysCall k prm c)
    {fuel0 : Nat} {st : St Pdf} (hrun : run (env k) prm fuel0 calls St.empty = some st)
    {s : PSens} (hs : SensOk s) {δ τ : ℝ} (hlog : ∀ x, 0 ≤ x → Near δ (s.lg x) x) (hτ0 : 0 ≤ τ)
    (hτ : ∀ a i j, |s.pdMiss a i - s.pdMiss a j| ≤ τ * (1 - s.pdMiss a j))
    {ch : Choices} (hch : ChOk ch) (hp : ∀ r c, PickOk (ch.pick r c)) (hwt : ch.wt = ew) {B : ℚ}
    (hts : ∀ a t, st.heap a = some t → 0 < idle s (a, t) ∧ δ - Real.log (idle s (a, t)) ≤ B)
    {scan : List (Rep Rpt)} {dflt : Rep Rpt} {fuel : Nat} {st' : St Pdf} {reps : Nat → Rep Rpt}
    (e : correct (env k) (sensor k s) prm ch fuel scan dflt st = some (st', reps)) :
    ∃ o : Nat → LL,
      (∀ a, Gated (env k) (sensor k s) scan st a →
        ∃ (C J : List Nat) (f : Tgt Pdf) (D ε : ℝ) (n : Nat),
          C.Nodup ∧ J.Nodup ∧ C.length ≤ 30 ∧
          (∀ b, b ∈ C ↔ b = a ∨ ∃ j, Linked (env k) scan st a j ∧ Linked (env k) scan st b j) ∧
          (∀ j, j ∈ J ↔ Linked (env k) scan st a j) ∧
          (∀ b ∈ C, o b = originOf st scan dflt C J) ∧
          (viable (env k) prm (back (env k) f) = true → st'.heap a = some (back (env k) f)) ∧
          (viable (env k) prm (back (env k) f) = false → st'.heap a = none ∨
            ∃ u, st'.heap a = some u ∧ u.la = 'i') ∧
          (∀ A, |f.r * (lawOf f.pdf.mix A).toReal -
            scanPosterior s scan (Linked (env k) scan st) o (live st) a A| ≤
            (J.length + 1) * ε + logErr C.length δ + cutErr s st J.length C + τ +
            (1 / 1000000 + D)) ∧
          (∃ t, st.heap a = some t ∧ DropOk k (J.length + 1) t.pdf.mix.c.length f.pdf.mix.c f.r D) ∧
          0 < n ∧ ε ≤ 2 * spur C.length B + ((J.length + 2 : Nat) : ℝ) ^ C.length / n ∧
          ((n : ℝ) < prm.nhypMax →
            ε ≤ 2 * spur C.length B + ((J.length + 2 : Nat) : ℝ) ^ C.length * max 0 prm.wlim)) ∧
      ∀ j < scan.length, ∃ b, (reps j).rB = some b ∧
        ((∀ a, ¬ Linked (env k) scan st a j) →
          b = 1 ∧ scanUnclaimed s scan (Linked (env k) scan st) o (live st) j = 1) ∧
        ∀ a, Linked (env k) scan st a j → ∃ (C J : List Nat) (ε : ℝ) (n : Nat),
          C.Nodup ∧ J.Nodup ∧ C.length ≤ 30 ∧
          (∀ b, b ∈ C ↔ b = a ∨ ∃ j, Linked (env k) scan st a j ∧ Linked (env k) scan st b j) ∧
          (∀ j, j ∈ J ↔ Linked (env k) scan st a j) ∧
          |b - scanUnclaimed s scan (Linked (env k) scan st) o (live st) j| ≤
            ε + logErr C.length δ + cutErr s st J.length C ∧
          0 < n ∧ ε ≤ 2 * spur C.length B + ((J.length + 2 : Nat) : ℝ) ^ C.length / n ∧
          ((n : ℝ) < prm.nhypMax →
            ε ≤ 2 * spur C.length B + ((J.length + 2 : Nat) : ℝ) ^ C.length * max 0 prm.wlim) := by
  have hinv : Inv (env k) st := run_inv (env_box k) (Inv.empty _) (fun c h => sysCall_ok (hcalls c h))
    hrun
  have hts' : ∀ a t, st.heap a = some t → Fine k.mx t ∧ 0 < idle s (a, t) ∧ δ - Real.log (idle s (a, t)) ≤ B := by
    intro a t ht
    obtain ⟨h1, h2, h3, h4, h5, _⟩ := C66_densities_proper hk hB0 hB1 hcalls hrun a t ht
    exact ⟨⟨h1, ⟨h4, h3, Or.inr h5⟩, List.length_pos_iff.1 h2⟩, hts a t ht⟩
  have hz : ∀ z ∈ scan, ((env k).rbox z.val).Valid := fun z _ => (k.rbox z.val).2.1
  have hfov : (sensor k s).fovBox.Valid := hs.fov
  obtain ⟨cls, s1, rcid, new, h1, h2, h3, h4⟩ := correct_origin (env_box k) hfov hch hz hinv e
  obtain ⟨cls', s1', rcid', p1, p2, p3, p4, p5, p6, p7, p8, p9, p10⟩ :=
    prepare_ok (env_box k) hfov hz hinv.ok
  rw [h1.prep, Option.some.injEq, Prod.mk.injEq, Prod.mk.injEq] at p1
  obtain ⟨rfl, rfl, rfl⟩ := p1
  have hclosed := prepare_closed (env_box k) hfov hz hinv.ok h1.prep
  let o : Nat → LL := fun a => match cls.find? (fun c => c.targets.contains a) with
    | some c => originOf st scan dflt c.targets c.reports
    | none => 0
  have ho : ∀ c ∈ cls, ∀ a ∈ c.targets, o a = originOf st scan dflt c.targets c.reports := by
    intro c hc a ha
    obtain ⟨i, hi⟩ := List.mem_iff_getElem?.1 hc
    simp only [o, (find_targets p2.tnd hi ha).1]
  have hcl : ∀ c ∈ cls, c.targets ≠ [] → ∀ v, compOf (env k) (sensor k s) prm ch.pick fuel ch.wt
      s1.heap (initReps scan rcid dflt) c = some v → _ := fun c hc hne v hv =>
    cluster_scan hk.srt prm hs hlog hτ0 hτ hp hinv.ok hts' h1.prep ho hc hne (hwt ▸ hv)
  have hnew : ∀ a ∈ new, ∃ u, st'.heap a = some u ∧ u.la = 'i' := by
    intro a ha
    obtain ⟨m, hm⟩ := List.mem_iff_getElem?.1 ha
    obtain ⟨j, x, _, hh⟩ := h1.new_born hm
    exact ⟨_, hh, rfl⟩
  refine ⟨o, ?_, ?_⟩
  · intro a hg
    obtain ⟨c, hc, ha⟩ := (p7 a).2 hg
    obtain ⟨v, hv⟩ := h1.comps c hc
    obtain ⟨ε, f, d, g1, g2, g3, g4, g5, g6⟩ := hcl c hc (List.ne_nil_of_mem ha) v hv
    obtain ⟨m, hm⟩ := List.mem_iff_getElem?.1 ha
    obtain ⟨r1, r2, r3⟩ := g2 m a hm
    have hfin : finalHeap (env k) (sensor k s) prm ch.pick fuel ch.wt s1.heap
        (initReps scan rcid dflt) cls a =
        (some (back (env k) (f a))).filter fun t => viable (env k) prm t := by
      have hany : (cls.any fun c => c.targets.contains a) = true := by
        rw [List.any_eq_true]
        exact ⟨c, hc, by simpa using ha⟩
      obtain ⟨i, hi⟩ := List.mem_iff_getElem?.1 hc
      rw [finalHeap, if_pos hany]
      congr 1
      unfold midHeap
      rw [(find_targets p2.tnd hi ha).1]
      simp only [hv]
      obtain ⟨l1, _, _, _⟩ := compOf_length hv
      have hnd := (List.nodup_flatMap.1 p2.tnd).1 c hc
      obtain ⟨m', t, k1, k2, k3⟩ := writeAll_mem (h := s1.heap) hnd l1 ha
      rw [k3]
      have := (List.getElem?_inj (List.getElem?_eq_some_iff.1 hm).1 hnd).1 (hm.trans k1.symm)
      subst this
      rw [r1] at k2
      exact k2.symm
    refine ⟨c.targets, c.reports, f a, d a, ε, v.n, (List.nodup_flatMap.1 p2.tnd).1 c hc,
      (List.nodup_flatMap.1 p2.rnd).1 c hc, g1, (hclosed c hc a ha).2, (hclosed c hc a ha).1,
      ho c hc, ?_, ?_, r2, r3, g4, g5, g6⟩
    · intro hvb
      have hn : a ∉ new := by
        intro hn
        have := h1.fresh a hn
        rw [hfin, Option.filter_some, if_pos hvb] at this
        cases this
      rw [h1.old a hn, hfin, Option.filter_some, if_pos hvb]
    · intro hvb
      by_cases hn : a ∈ new
      · exact Or.inr (hnew a hn)
      · left
        rw [h1.old a hn, hfin, Option.filter_some, if_neg (by rw [hvb]; simp)]
  · intro j hj
    have hmem : j ∈ cls.flatMap Cl.reports := p6.mem_iff.2 (List.mem_range.2 hj)
    obtain ⟨c, hc, hjc⟩ := List.mem_flatMap.1 hmem
    obtain ⟨v, hv⟩ := h1.comps c hc
    obtain ⟨l1, l2, l3, _⟩ := compOf_length hv
    have hnd := (List.nodup_flatMap.1 p2.rnd).1 c hc
    obtain ⟨m, z, b, k1, k2, k3, k4⟩ := writeReps_mem (reps := initReps scan rcid dflt) hnd l2 l3 hjc
    have hrb : (reps j).rB = b := by
      obtain ⟨i, hi⟩ := List.mem_iff_getElem?.1 hc
      rw [h1.rep]
      unfold finalReps
      rw [(find_reports p2.rnd hi hjc).1]
      simp only [hv]
      rw [k4]
    have hlk : ∀ a, Linked (env k) scan st a j → a ∈ c.targets := by
      intro a hl
      obtain ⟨i, hi, _⟩ := id hl
      have hg : Gated (env k) (sensor k s) scan st a := by
        obtain ⟨t, z, q1, q2, q3⟩ := hi
        exact ⟨t, q1, Or.inr ⟨z, List.mem_of_getElem? q2, q3⟩⟩
      obtain ⟨c', hc', ha⟩ := (p7 a).2 hg
      have hj' := ((hclosed c' hc' a ha).1 j).2 hl
      obtain rfl := unique_of_nodup p2.rnd hc' hc hj' hjc
      exact ha
    by_cases hne : c.targets = []
    · have hno : ∀ a, ¬ Linked (env k) scan st a j := fun a hl => by
        have := hlk a hl
        rw [hne] at this
        simp at this
      have hb : b = some 1 := by
        simp only [compOf, hne, readAll] at hv
        rw [compute_eq rfl rfl rfl] at hv
        simp only [List.map_nil, List.length_nil, if_true, Option.some.injEq] at hv
        subst hv
        simp only [List.getElem?_map, Option.map_eq_some_iff] at k3
        obtain ⟨_, _, h⟩ := k3
        exact h.symm
      refine ⟨1, hrb.trans hb, fun _ => ⟨rfl, ?_⟩, fun a hl => absurd hl (hno a)⟩
      refine scanUnclaimed_free ?_ ?_ hj fun x _ => hno x.1
      · intro x hx
        rw [mem_live hinv.ok.live] at hx
        exact (hts' _ _ hx).1.1
      · intro x hx
        rw [mem_live hinv.ok.live] at hx
        exact idle_free hs (hts' _ _ hx).1 (hts' _ _ hx).2.1
    · obtain ⟨ε, f, d, g1, g2, g3, g4, g5, g6⟩ := hcl c hc hne v hv
      obtain ⟨b', q1, q2⟩ := g3 m j k1
      rw [k3] at q1
      obtain rfl := Option.some.inj q1
      refine ⟨b', hrb, ?_, ?_⟩
      · intro hno
        obtain ⟨a, ha⟩ := List.exists_mem_of_ne_nil _ hne
        exact absurd (((hclosed c hc a ha).1 j).1 hjc) (hno a)
      · intro a hl
        have ha := hlk a hl
        exact ⟨c.targets, c.reports, ε, v.n, (List.nodup_flatMap.1 p2.tnd).1 c hc, hnd, g1,
          (hclosed c hc a ha).2, (hclosed c hc a ha).1, q2, g4, g5, g6⟩

/-! ## A concrete case -/

/-- The box of everything in the example. -/
def exBox : Box := ⟨⟨0, 0, 1, 1⟩, by constructor <;> norm_num, by
  rintro q rfl
  unfold RTree.Rect.Sub RTreeF.box64
  norm_num⟩

/-- `exOpts`, where all boxes coincide. -/
noncomputable def exOpts2 : Opts := { exOpts with mkBox := fun _ _ _ => exBox, rbox := fun _ => exBox }

theorem exOpts2_ok : OptsOk exOpts2 :=
  ⟨exOpts_ok.srt, exOpts_ok.mx, exOpts_ok.lim, exOpts_ok.prod⟩

/-- A scan of two reports. -/
noncomputable def exCall : Call Pdf Rpt :=
  .correct (sensor exOpts2 exSens) exCh exScan ⟨exRpt 0 0, none, 0⟩

theorem exCall_costs : CallCosts exCall := by
  have hl : ∀ x, XR.IsC (exSens.lg x) := by
    intro x
    by_cases h : 0 < x
    · exact Or.inr ⟨_, if_pos h⟩
    · exact Or.inl (if_neg h)
  refine ⟨⟨fun _ _ _ _ => hl _, fun _ _ _ => hl _, fun r => ?_⟩, exCh_pick⟩
  change XR.IsFin (if _ then _ else _)
  split
  · rename_i hr
    exact exSens_ok.pos _ (by linarith)
  · exact ⟨_, rfl⟩

/-- Up to a million hypotheses, none too improbable. -/
noncomputable def exPrmMany : Params := ⟨0, 1 / 20, 1000000, 4 / 5, 150⟩

theorem exCall_many : SysCall exOpts2 exPrmMany exCall :=
  ⟨⟨_, exSens_ok, rfl⟩, exCh_ok, exCh_pick, fun q => (ew_pos q).le, by
    show (3 * ((2 : ℕ) : ℝ) + 4) / 100000000 < 1 / 20
    norm_num⟩

theorem ex_spur : spur 2 2 ≤ 1 / 10000000 := by
  have h1 := Real.quadratic_le_exp_of_nonneg (show (0 : ℝ) ≤ 29998 by norm_num)
  have h2 : Real.exp (((2 : ℚ) : ℝ) - 30000) ≤ 1 / 400000000 := by
    rw [show ((2 : ℚ) : ℝ) - 30000 = -29998 by norm_num, Real.exp_neg, ← one_div]
    exact one_div_le_one_div_of_le (by norm_num) (by linarith)
  have h0 := Real.exp_nonneg (((2 : ℚ) : ℝ) - 30000)
  unfold spur
  generalize Real.exp (((2 : ℚ) : ℝ) - 30000) = x at *
  push_cast
  nlinarith

theorem ex_log : logErr 2 (1 / 2 ^ 40) ≤ 1 / 10000000 := by
  have := Real.abs_exp_sub_one_le (x := 2 * (2 : ℕ) * (1 / 2 ^ 40)) (by norm_num [abs_of_pos])
  unfold logErr
  refine (le_abs_self _).trans (this.trans ?_)
  norm_num [abs_of_pos]

/-- After the first scan two targets with existence probability 1/2 are alive, in the same place.
The second scan is defined, and both are gated by both reports; its result is near the exact
posterior: 1/10000, and what is lost if all three densities that are joined are below `cw_lim`. -/
example : ∃ F st st' reps o, run (env exOpts2) exPrmMany F [exCall] St.empty = some st ∧
    correct (env exOpts2) (sensor exOpts2 exSens) exPrmMany exCh F exScan ⟨exRpt 0 0, none, 0⟩ st =
      some (st', reps) ∧ st.targets.length = 2 ∧ ∀ a ∈ st.targets, ∃ f : Tgt Pdf,
      (viable (env exOpts2) exPrmMany (back (env exOpts2) f) = true →
        st'.heap a = some (back (env exOpts2) f)) ∧ ∀ A, |f.r * (lawOf f.pdf.mix A).toReal -
        scanPosterior exSens exScan (Linked (env exOpts2) exScan st) o (live st) a A| ≤
        1 / 10000 + 3 / 100 * f.r := by
  have hok := sysCall_ok exCall_many
  have hok2 : ∀ c ∈ [exCall], CallOk (env exOpts2) c := by
    intro c hc
    rw [List.mem_singleton] at hc
    subst hc
    exact hok
  obtain ⟨F, s2, h⟩ := C26_defined (env_box exOpts2) exPrmMany [exCall, exCall]
    (by
      intro c hc
      simp only [List.mem_cons, List.not_mem_nil, or_false, or_self] at hc
      subst hc
      exact hok)
    (by
      intro c hc
      simp only [List.mem_cons, List.not_mem_nil, or_false, or_self] at hc
      subst hc
      exact exCall_costs)
    (by simp [exCall, Call.reports, exScan])
  have h := h F (le_refl _)
  obtain ⟨st, reps1, new, h1, h2, _, h3, h4, _⟩ := C58_unreached_scan (env_box exOpts2) exPrmMany F []
    (by simp) St.empty rfl (sensor exOpts2 exSens) exCh exScan ⟨exRpt 0 0, none, 0⟩ hok
    (by rintro a ⟨t, ht, _⟩; simp [St.empty] at ht)
  have hl : new.length = 2 := h4 (by show (1 : ℝ) / 20 ≤ (2 : ℕ); norm_num)
    (by show (1 : ℝ) / 20 ≤ 1 / (2 : ℕ); norm_num)
  have hst : step (env exOpts2) exPrmMany F St.empty exCall = some st := by
    simp only [exCall, step, h1, Option.map_some]
  have hrun : run (env exOpts2) exPrmMany F [exCall] St.empty = some st := by
    simp only [run, hst]
  simp only [run, hst] at h
  cases hc : correct (env exOpts2) (sensor exOpts2 exSens) exPrmMany exCh F exScan ⟨exRpt 0 0, none, 0⟩ st with
  | none => simp [exCall, step, hc] at h
  | some p =>
  obtain ⟨st', reps⟩ := p
  have hinv := run_inv (env_box exOpts2) (Inv.empty _) hok2 hrun
  have hnew : st.targets = new := by rw [h2]; rfl
  have hr : ∀ a t, st.heap a = some t → t.r = 1 / 2 := by
    intro a t ht
    have ha := (hinv.ok.live a).1 ⟨t, ht⟩
    rw [hnew] at ha
    obtain ⟨t', ht', hr⟩ := h3 a ha
    rw [ht] at ht'
    obtain rfl := Option.some.inj ht'
    rw [hr]
    show min ((1 : ℝ) / (2 : ℕ)) (4 / 5) = 1 / 2
    norm_num
  have hone : ∀ a t, st.heap a = some t → t.pdf.mix.c.length = 1 := by
    intro a t ht
    obtain ⟨old, nw, idx, x, b1, b2, b3, b4, _, _, b7, _⟩ := C25_births (env_box exOpts2) exPrmMany F []
      (by simp) St.empty rfl (sensor exOpts2 exSens) exCh exScan ⟨exRpt 0 0, none, 0⟩ hok st reps1 h1
    have ha := (hinv.ok.live a).1 ⟨t, ht⟩
    have hold : old = [] := List.eq_nil_of_sublist_nil b2
    rw [b1, hold, List.nil_append] at ha
    obtain ⟨i, hi, rfl⟩ := List.mem_iff_getElem.1 ha
    obtain ⟨_, b, u, _, _, q1, _, _, q2⟩ := b7 i _ _ _ (List.getElem?_eq_getElem hi)
      (List.getElem?_eq_getElem (b3 ▸ hi)) (List.getElem?_eq_getElem (b4 ▸ b3 ▸ hi))
    rw [ht] at q1
    obtain rfl := Option.some.inj q1
    rw [q2]
    rfl
  have hidle : ∀ a t, st.heap a = some t → 1 / 2 ≤ idle exSens (a, t) := by
    intro a t ht
    have : 1 - t.r ≤ idle exSens (a, t) := le_max_left _ _
    rw [hr a t ht] at this
    linarith
  have hb : ∀ a t, st.heap a = some t → t.pdf.box = exBox := by
    refine run_tgt (T := fun t : Tgt Pdf => t.pdf.box = exBox) (env_box exOpts2) ?_ hok2 ?_ hrun
    · intro t u _ h2 h
      rw [h2]; exact h
    · intro c hc
      rw [List.mem_singleton] at hc
      subst hc
      refine ⟨?_, fun _ _ _ _ _ => rfl⟩
      intro ts rs v _ _ hv t ht _
      rw [compute_eq rfl rfl rfl] at hv
      split at hv
      · obtain rfl := Option.some.inj hv
        simp at ht
      · split at hv
        · cases hv
        · split at hv
          · obtain rfl := Option.some.inj hv
            obtain ⟨x, _, rfl⟩ := List.mem_map.1 ht
            rfl
          · obtain rfl := Option.some.inj hv
            obtain ⟨i, rfl⟩ := (List.mem_ofFn' _ _).1 ht
            rfl
  obtain ⟨o, ho, _⟩ := C73_scan exOpts2_ok (prm := exPrmMany) (by show (0 : ℝ) ≤ 4 / 5; norm_num)
    (by show (4 : ℝ) / 5 ≤ 1; norm_num) (calls := [exCall])
    (by
      intro c hc
      rw [List.mem_singleton] at hc
      subst hc
      exact exCall_many) hrun exSens_ok exSens_near (le_refl 0) (fun _ _ _ => by simp [exSens])
    exCh_ok exCh_pick rfl (B := 2) (by
      intro a t ht
      have h := hidle a t ht
      refine ⟨by linarith, ?_⟩
      have hl := Real.log_le_log (by norm_num : (0 : ℝ) < 1 / 2) h
      refine (sub_le_sub_left hl _).trans ?_
      have h := Real.log_le_sub_one_of_pos (show (0 : ℝ) < 2 by norm_num)
      rw [one_div (2 : ℝ), Real.log_inv]
      norm_num
      norm_num at h
      linarith) hc
  have hhit : ∀ a ∈ st.targets, ∀ j < 2, Hits (env exOpts2) exScan st a j := by
    intro a ha j hj
    obtain ⟨t, ht⟩ := (hinv.ok.live a).2 ha
    refine ⟨t, exScan[j], ht, List.getElem?_eq_getElem hj, ?_⟩
    show exBox.1.Touch t.pdf.box.1
    rw [hb a t ht]
    exact ⟨0, 0, by constructor <;> norm_num [exBox], by constructor <;> norm_num [exBox]⟩
  refine ⟨F, st, st', reps, o, hrun, hc, by rw [hnew, hl], fun a ha => ?_⟩
  obtain ⟨t, ht⟩ := (hinv.ok.live a).2 ha
  obtain ⟨C, J, f, d, ε, n, g1, g2, g3, g4, g5, g6, g7, g8, g9, g10, g11, g12, g13⟩ := ho a (by
    obtain ⟨t, z, q1, q2, q3⟩ := hhit a ha 0 (by norm_num)
    exact ⟨t, q1, Or.inr ⟨z, List.mem_of_getElem? q2, q3⟩⟩)
  have hC : C.Perm st.targets := by
    rw [List.perm_ext_iff_of_nodup g1 hinv.ok.nodup]
    intro b
    rw [g4]
    constructor
    · rintro (rfl | ⟨j, _, i, ⟨t, _, ht, _⟩, _⟩)
      · exact ha
      · exact (hinv.ok.live b).1 ⟨t, ht⟩
    · intro hb
      exact Or.inr ⟨0, ⟨0, hhit a ha 0 (by norm_num), .refl⟩, ⟨0, hhit b hb 0 (by norm_num), .refl⟩⟩
  have hJ : J.Perm (List.range 2) := by
    rw [List.perm_ext_iff_of_nodup g2 List.nodup_range]
    intro j
    rw [g5, List.mem_range]
    exact ⟨fun h => h.lt, fun h => ⟨j, hhit a ha j h, .refl⟩⟩
  have hCl : C.length = 2 := by rw [hC.length_eq, hnew, hl]
  have hJl : J.length = 2 := by rw [hJ.length_eq, List.length_range]
  have hm : cutErr exSens st 2 C ≤ (1 + 2 / 100000000) ^ 2 - 1 := by
    obtain ⟨x, y, rfl⟩ := List.length_eq_two.1 hCl
    have key : ∀ b ∈ [x, y], 0 ≤ rOf st b / idleOf exSens st b ∧ rOf st b / idleOf exSens st b ≤ 1 := by
      intro b hb
      obtain ⟨t, ht⟩ := (hinv.ok.live b).2 (hC.mem_iff.1 hb)
      have h1 := hidle b t ht
      simp only [rOf, idleOf, ht, Option.elim]
      rw [hr b t ht]
      exact ⟨div_nonneg (by norm_num) (by linarith), (div_le_one (by linarith)).2 h1⟩
    obtain ⟨x1, x2⟩ := key x (by simp)
    obtain ⟨y1, y2⟩ := key y (by simp)
    simp only [cutErr, List.map_cons, List.map_nil, List.prod_cons, List.prod_nil, mul_one]
    push_cast
    set u := rOf st x / idleOf exSens st x
    set w := rOf st y / idleOf exSens st y
    nlinarith [mul_le_one₀ x2 y1 y2]
  refine ⟨f, g7, fun A => ?_⟩
  have := g9 A
  rw [hCl, hJl] at this
  refine this.trans ?_
  rw [hCl, hJl] at g12 g13
  have hε : ε ≤ 2 * (1 / 10000000) + 16 / 1000000 := by
    by_cases hn : (n : ℝ) < exPrmMany.nhypMax
    · refine (g13 hn).trans ?_
      have : max (0 : ℝ) exPrmMany.wlim = 0 := max_self 0
      rw [this]
      linarith [ex_spur]
    · refine g12.trans ?_
      have hn : (1000000 : ℝ) ≤ n := not_lt.1 hn
      have : (((2 + 2 : ℕ) : ℝ)) ^ 2 / n ≤ 16 / 1000000 := by
        rw [show (((2 + 2 : ℕ) : ℝ)) ^ 2 = 16 by norm_num]
        exact div_le_div_of_nonneg_left (by norm_num) (by norm_num) hn
      linarith [ex_spur]
  have hD : d ≤ 3 / 100 * f.r := by
    obtain ⟨u, hu, hd⟩ := g10
    have := hd.share (by show 0 < 200; norm_num)
    rw [hone a u hu, hJl, show max exOpts2.lim (1 / (exOpts2.mx : ℝ)) = 1 / 100 by
      show max (1 / 100 : ℝ) (1 / ((200 : ℕ) : ℝ)) = _; norm_num] at this
    push_cast at this
    linarith
  have := ex_log
  push_cast
  linarith

end Verif.System
