import Verif.Tracker.Props5
import Verif.Tracker.Closed
import Verif.System.Fuel
import Mathlib.Analysis.Complex.ExponentialBounds

/-! # Targets and reports that are alone in their cluster -/

namespace Verif.Tracker

open Verif.RTree (Rect WF items)
open Verif.Cluster (Cl)
open Verif.Hyp Verif.Lap Verif.Murty XR

variable {P R O : Type}

/-! ## One target, no report -/

/-- The only fates of a lone target: missed, or not there. -/
theorem lone_cases (σ : Fin 1 → Fin (0 + 2 * 1)) : σ = (fun _ => 0) ∨ σ = fun _ => 1 := by
  have h : ∀ x : Fin (0 + 2 * 1), x = 0 ∨ x = 1 := by decide
  rcases h (σ 0) with h | h
  · left; funext i; rw [Subsingleton.elim i 0]; exact h
  · right; funext i; rw [Subsingleton.elim i 0]; exact h

/-- The hypotheses of a lone target: both are drawn. -/
theorem lone_hypotheses {det : Fin 1 → Fin 0 → XR} {miss fls : Fin 1 → XR} {qf : ℚ}
    (hm : IsC (miss 0)) (hf : fls 0 = fin qf)
    {pick : List (Node 1 (0 + 2 * 1)) → Nat} (hp : PickOk pick) {wt : ℚ → ℝ} {wlim nmax : ℝ}
    (hw : wlim ≤ 1) (hn : 1 < nmax) {fuel : Nat} {a : Acc 1 0}
    (e : hypotheses pick fuel wt wlim nmax (costMatrix det miss fls) = some a) :
    a.n ≠ 0 ∧ ∀ x, ((∃ q, miss 0 = fin q ∧ x = wt q) ∨ (miss 0 = pinf ∧ x = 0)) →
      a.wsum = x + wt qf ∧ a.R 0 0 = x := by
  classical
  have hC : CostOk (costMatrix det miss fls) :=
    costMatrix_ok (fun _ j => j.elim0) (fun i => by rw [Subsingleton.elim i 0]; exact hm)
      (fun i => by rw [Subsingleton.elim i 0]; exact ⟨qf, hf⟩)
  obtain ⟨F, L, a', g1, g2, g3, g4, g5, g6, g7, g8⟩ :=
    hypotheses_spec hC (by decide) (by decide) hp wt wlim nmax
  obtain rfl : a' = a := by
    have h1 := Hyp.hypotheses_mono pick wt wlim nmax (le_max_left fuel F) e
    rw [g1 _ (le_max_right _ _)] at h1
    exact Option.some.inj h1
  have c0 : costMatrix det miss fls 0 (0 : Fin (0 + 2 * 1)) = miss 0 := rfl
  have c1 : costMatrix det miss fls 0 (1 : Fin (0 + 2 * 1)) = fin qf := hf
  have f1 : Feasible (costMatrix det miss fls) fun _ => (1 : Fin (0 + 2 * 1)) :=
    ⟨fun i j _ => Subsingleton.elim i j, fun i => by
      rw [Subsingleton.elim i 0]; exact ⟨qf, c1⟩⟩
  have t1 : total (costMatrix det miss fls) (fun _ => (1 : Fin (0 + 2 * 1))) = qf := by
    simp only [total, Finset.univ_unique, Finset.sum_singleton, Fin.default_eq_zero, c1]; rfl
  have hne : (fun _ => 0 : Fin 1 → Fin (0 + 2 * 1)) ≠ fun _ => 1 := by
    intro h
    exact absurd (congrFun h 0) (by decide)
  -- one hypothesis does not stop the loop
  have hstop : ∀ x : ℝ, ¬ Stop wlim nmax [x] := by
    rintro x (⟨h1, h2⟩ | h)
    · simp only [List.sum_cons, List.sum_nil, add_zero, List.getLast?_singleton,
        Option.getD_some] at h1 h2
      rw [div_self h1] at h2
      linarith
    · simp only [List.length_cons, List.length_nil] at h
      norm_num at h
      linarith
  have hall : ∀ τ, Feasible (costMatrix det miss fls) τ → τ ∈ L := by
    rcases g8 with ⟨h1, h2⟩ | h
    · intro τ hτ
      match L, h1 with
      | [σ], _ => exact absurd h2 (hstop _)
      | σ :: ρ :: l, _ =>
        rw [List.nodup_cons] at g3
        have hσρ : σ ≠ ρ := by rintro rfl; exact g3.1 List.mem_cons_self
        rcases lone_cases τ with rfl | rfl <;> rcases lone_cases σ with rfl | rfl <;>
          rcases lone_cases ρ with rfl | rfl <;> simp_all
    · exact h
  have m1 := hall _ f1
  refine ⟨?_, ?_⟩
  · rw [g2.n]
    exact (List.length_pos_of_mem m1).ne'
  rintro x (⟨q, hq, rfl⟩ | ⟨hq, rfl⟩)
  · have f0 : Feasible (costMatrix det miss fls) fun _ => (0 : Fin (0 + 2 * 1)) :=
      ⟨fun i j _ => Subsingleton.elim i j, fun i => by
        rw [Subsingleton.elim i 0]; exact ⟨q, c0.trans hq⟩⟩
    have t0 : total (costMatrix det miss fls) (fun _ => (0 : Fin (0 + 2 * 1))) = q := by
      simp only [total, Finset.univ_unique, Finset.sum_singleton, Fin.default_eq_zero, c0, hq]; rfl
    have hperm : L.Perm [fun _ => 0, fun _ => 1] := by
      rw [List.perm_ext_iff_of_nodup g3 (by simp [hne])]
      intro τ
      constructor
      · intro _
        rcases lone_cases τ with rfl | rfl <;> simp
      · intro hτ
        simp only [List.mem_cons, List.not_mem_nil, or_false] at hτ
        rcases hτ with rfl | rfl
        · exact hall _ f0
        · exact m1
    constructor
    · rw [g2.wsum, (hperm.map _).sum_eq]
      simp [t0, t1]
    · rw [g2.R, ((hperm.filter _).map _).sum_eq]
      have d0 : target (M := 1) (N := 0) 0 0 = some 0 := by decide
      have d1 : ¬ target (M := 1) (N := 0) 0 1 = some 0 := by decide
      simp [d0, d1, t0]
  · have hperm : L.Perm [fun _ => 1] := by
      rw [List.perm_ext_iff_of_nodup g3 (by simp)]
      intro τ
      constructor
      · intro hτ
        rcases lone_cases τ with rfl | rfl
        · obtain ⟨q, h⟩ := (g4 _ hτ).2 0
          rw [c0, hq] at h
          cases h
        · simp
      · intro hτ
        rw [List.mem_singleton.1 hτ]
        exact m1
    constructor
    · rw [g2.wsum, (hperm.map _).sum_eq]
      simp [t1]
    · rw [g2.R, ((hperm.filter _).map _).sum_eq]
      have d1 : ¬ target (M := 1) (N := 0) 0 1 = some 0 := by decide
      simp [d1]

/-- The weight of the hypothesis that a lone target was missed. -/
def MissWeight (wt : ℚ → ℝ) (c : XR) (x : ℝ) : Prop :=
  (∃ q, c = fin q ∧ x = wt q) ∨ (c = pinf ∧ x = 0)

theorem lone_corrected {E : Env P R O} {S : Sensor P R} {acc : Hyp.Acc 1 0} (a : Nat) (t : Tgt P)
    (o : O) {x y : ℝ} (h3 : acc.wsum = x + y) (h4 : acc.R 0 0 = x) (h : x + y ≠ 0) :
    back E (corrected E S a (forth E o t) [] (List.ofFn fun j => acc.R 0 j / acc.wsum)
      (acc.rowSum 0)) = { t with
      r := if 1 / 1000000 ≤ x / (x + y) then x / (x + y) else 0
      pdf := E.toGlobal (if 1 / 1000000 ≤ x / (x + y) then
        E.join (E.toLocal o t.pdf) [x / (x + y)] [S.missPdf a (E.toLocal o t.pdf)]
          else E.toLocal o t.pdf)
      la := if 1 / 1000000 ≤ x / (x + y) then 'c' else t.la } := by
  have hw : acc.wsum ≠ 0 := by rw [h3]; exact h
  have hs : acc.rowSum 0 = some (x / (x + y)) := by
    unfold Hyp.Acc.rowSum
    rw [if_neg hw]
    simp [h3, h4]
  have hl : (List.ofFn fun j => acc.R 0 j / acc.wsum) = [x / (x + y)] := by
    simp [h3, h4]
  rw [hs, hl]
  unfold back corrected targetCorrect forth
  by_cases hc : 1 / 1000000 ≤ x / (x + y)
  · simp only [if_pos hc, List.map_nil, List.nil_append, if_true]
  · simp only [if_neg hc]
    rfl

/-- What the correction makes of a lone target. -/
theorem lone_compute {E : Env P R O} {S : Sensor P R} {prm : Params}
    {pick : ∀ r c, List (Node r c) → Nat} (hp : ∀ r c, PickOk (pick r c)) {fuel : Nat} {wt : ℚ → ℝ}
    {a : Nat} {t : Tgt P} {o : O} {p : P} (ho : o = E.center [E.pos t.pdf])
    (hpp : p = E.toLocal o t.pdf) {x : ℝ} {qf : ℚ} (hm : MissWeight wt (S.missCost a t.r p) x)
    (hf : S.flsCost t.r = fin qf) (hsum : x + wt qf ≠ 0)
    (hw : prm.wlim ≤ 1) (hn : 1 < prm.nhypMax) {v : Comp P R}
    (e : compute E S prm pick fuel wt [(a, t)] [] = some v) :
    v.ts = [{ t with
      r := if 1 / 1000000 ≤ x / (x + wt qf) then x / (x + wt qf) else 0
      pdf := E.toGlobal (if 1 / 1000000 ≤ x / (x + wt qf) then
        E.join p [x / (x + wt qf)] [S.missPdf a p] else p)
      la := if 1 / 1000000 ≤ x / (x + wt qf) then 'c' else t.la }] := by
  classical
  subst ho hpp
  have hC : IsC (S.missCost a t.r (E.toLocal (E.center [E.pos t.pdf]) t.pdf)) := by
    rcases hm with ⟨q, h, _⟩ | ⟨h, _⟩
    · exact Or.inr ⟨q, h⟩
    · exact Or.inl h
  unfold compute at e
  simp only at e
  rw [if_neg (by simp)] at e
  split at e
  · cases e
  · rename_i acc hacc
    have h := lone_hypotheses (qf := qf) (by exact hC) hf (hp _ _) hw hn hacc
    obtain ⟨h1, h2⟩ := h
    obtain ⟨h3, h4⟩ := h2 x hm
    have h5 : acc.n ≠ 0 := h1
    rw [if_neg h5] at e
    injection e with e
    subst e
    have one : ∀ (n : Nat) (hn : n = 1) (f : Fin n → Tgt P) (y : Tgt P),
        f ⟨0, hn ▸ Nat.one_pos⟩ = y → List.ofFn f = [y] := by
      rintro n rfl f y rfl
      simp
    dsimp only
    refine one _ (by simp) _ _ ?_
    exact lone_corrected (E := E) (S := S) (acc := acc) a t (E.center [E.pos t.pdf]) h3 h4 hsum

/-- A target that no report touches is alone in its cluster. -/
theorem lone_cluster {E : Env P R O} (hbox : BoxOk E) {S : Sensor P R}
    (hf : S.fovBox.Valid) {scan : List (Rep R)} (hz : ∀ z ∈ scan, (E.rbox z.val).Valid) {s : St P}
    (hs : Ok E s fun _ => False) {cls : List Cl} {s1 : St P} {rcid : Nat → Nat}
    (e : prepare E S scan s = some (cls, s1, rcid)) {c : Cl} (hc : c ∈ cls) {a : Nat}
    (ha : a ∈ c.targets) (hno : ∀ j, ¬ Hits E scan s a j) : c.targets = [a] ∧ c.reports = [] := by
  obtain ⟨h1, h2⟩ := prepare_closed hbox hf hz hs e c hc a ha
  have hl : ∀ j, ¬ Linked E scan s a j := by
    rintro j ⟨i, h, _⟩
    exact hno i h
  obtain ⟨cls', s1', rcid', p1, p2, _⟩ := prepare_ok hbox hf hz hs
  rw [e, Option.some.injEq, Prod.mk.injEq, Prod.mk.injEq] at p1
  obtain ⟨rfl, rfl, rfl⟩ := p1
  have hnd := (List.nodup_flatMap.1 p2.tnd).1 c hc
  refine ⟨?_, List.eq_nil_iff_forall_not_mem.2 fun j hj => hl j ((h1 j).1 hj)⟩
  have : c.targets.Perm [a] := by
    rw [List.perm_ext_iff_of_nodup hnd (by simp)]
    intro b
    rw [h2 b, List.mem_singleton]
    constructor
    · rintro (h | ⟨j, h, _⟩)
      · exact h
      · exact absurd h (hl j)
    · exact Or.inl
  exact List.perm_singleton.1 this

/-- What the correction stores for a target that no report touches. -/
theorem lone_stored {E : Env P R O} (hbox : BoxOk E) {S : Sensor P R} {prm : Params} {fuel : Nat}
    {pick : ∀ r c, List (Node r c) → Nat} (hp : ∀ r c, PickOk (pick r c)) {wt : ℚ → ℝ}
    (hf : S.fovBox.Valid) {scan : List (Rep R)} (hz : ∀ z ∈ scan, (E.rbox z.val).Valid) {s : St P}
    (hs : Ok E s fun _ => False) {cls : List Cl} {s1 : St P} {rcid : Nat → Nat}
    (e : prepare E S scan s = some (cls, s1, rcid)) {c : Cl} (hcm : c ∈ cls) {a k : Nat}
    (hk : c.targets[k]? = some a) {t : Tgt P} (ht : s.heap a = some t)
    (hno : ∀ z ∈ scan, ¬ (E.rbox z.val).Touch (E.box t.pdf))
    (hw : prm.wlim ≤ 1) (hn : 1 < prm.nhypMax) {p : P}
    (hpp : p = E.toLocal (E.center [E.pos t.pdf]) t.pdf) {x y : ℝ} {qf : ℚ}
    (hx : MissWeight wt (S.missCost a t.r p) x) (hy : S.flsCost t.r = fin qf ∧ y = wt qf)
    (hxy : x + y ≠ 0) {dflt : Rep R} {v : Comp P R}
    (hv : compOf E S prm pick fuel wt s1.heap (initReps scan rcid dflt) c = some v)
    {u : Tgt P} (hu : v.ts[k]? = some u) :
    ∃ cid, u = ⟨t.id, if 1 / 1000000 ≤ x / (x + y) then x / (x + y) else 0,
      E.toGlobal (if 1 / 1000000 ≤ x / (x + y) then
        E.join p [x / (x + y)] [S.missPdf a p] else p), cid,
      if 1 / 1000000 ≤ x / (x + y) then 'c' else t.la⟩ := by
  obtain ⟨hct, hcr⟩ := lone_cluster hbox hf hz hs e hcm (List.mem_of_getElem? hk) (by
    rintro j ⟨t', z, g1, g2, g3⟩
    rw [ht] at g1
    cases g1
    exact hno z (List.mem_of_getElem? g2) g3)
  obtain ⟨cls', s1', rcid', p1, p2, p3, p4, p5, p6, p7, p8, p9, p10⟩ := prepare_ok hbox hf hz hs
  rw [e, Option.some.injEq, Prod.mk.injEq, Prod.mk.injEq] at p1
  obtain ⟨rfl, rfl, rfl⟩ := p1
  obtain ⟨t1, g1, g2, g3, g4, g5⟩ := p9 a t ht
  obtain ⟨hy1, rfl⟩ := hy
  have hk0 : k = 0 := by
    have := (List.getElem?_eq_some_iff.1 hk).1
    rw [hct] at this
    simpa using this
  subst hk0
  have hv' : compute E S prm pick fuel wt [(a, t1)] [] = some v := by
    unfold compOf at hv
    rw [hct, hcr] at hv
    simpa only [readAll, g1, List.map_nil] using hv
  have hts := lone_compute hp rfl rfl (t := t1) (x := x) (qf := qf) (by rw [g3, g4, ← hpp]; exact hx)
    (by rw [g3]; exact hy1) hxy hw hn hv'
  rw [g4, ← hpp] at hts
  rw [hts] at hu
  simp only [List.getElem?_cons_zero, Option.some.injEq] at hu
  refine ⟨t1.cid, ?_⟩
  rw [← hu, g2, g5]

/-- **C103, one scan** What a scan does to a target that it looks at and that no report touches.  In the
frame at the target's position let `x` be the weight of "missed" and `y` that of "not there" (the
exponentials of the negated costs).  The new existence probability is `x / (x + y)`, or 0 if that is
below 1e-6, whatever else is in the scan and in the tracker; the density is that of a missed target.  If
the new value is viable the target lives on with it, otherwise it is gone: at its address there is
nothing, or a target that was born in this scan, with a new identifier. -/
theorem C103_missed {E : Env P R O} (hbox : BoxOk E) (prm : Params) (fuel : Nat)
    (calls : List (Call P R)) (hc : ∀ d ∈ calls, CallOk E d) (s : St P)
    (e : run E prm fuel calls St.empty = some s) (S : Sensor P R) (ch : Choices)
    (scan : List (Rep R)) (dflt : Rep R) (hok : CallOk E (.correct S ch scan dflt))
    (hp : ∀ r c, PickOk (ch.pick r c)) (s' : St P)
    (reps : Nat → Rep R) (e' : correct E S prm ch fuel scan dflt s = some (s', reps)) (a : Nat)
    (t : Tgt P) (ht : s.heap a = some t)
    (hview : S.fovBox.Touch (E.box t.pdf) ∧ S.inView t.pdf = true)
    (hno : ∀ z ∈ scan, ¬ (E.rbox z.val).Touch (E.box t.pdf))
    (hw : prm.wlim ≤ 1) (hn : 1 < prm.nhypMax) {p : P}
    (hpp : p = E.toLocal (E.center [E.pos t.pdf]) t.pdf) {x y : ℝ} {qf : ℚ}
    (hx : MissWeight ch.wt (S.missCost a t.r p) x) (hy : S.flsCost t.r = fin qf ∧ y = ch.wt qf)
    (hxy : x + y ≠ 0) :
    ∃ u : Tgt P, u.id = t.id ∧
      ((1 / 1000000 ≤ x / (x + y) ∧ u.r = x / (x + y) ∧
          u.pdf = E.toGlobal (E.join p [x / (x + y)] [S.missPdf a p]) ∧ u.la = 'c') ∨
        (x / (x + y) < 1 / 1000000 ∧ u.r = 0 ∧ u.pdf = E.toGlobal p ∧ u.la = t.la)) ∧
      (prm.rlim ≤ u.r → E.covNorm u.pdf ≤ prm.covlim → s'.heap a = some u ∧ a ∈ s'.targets) ∧
      (u.r < prm.rlim ∨ prm.covlim < E.covNorm u.pdf → ∀ w, s'.heap a = some w → w.la = 'i' ∧
        (∃ j < scan.length, w.pdf = S.init (reps j).val) ∧
        ∃ k < scan.length, w.id = (s.idc + k) % 2 ^ 32) := by
  have hs := run_inv hbox (Inv.empty E) hc e
  have hg : Gated E S scan s a := ⟨t, ht, Or.inl hview⟩
  obtain ⟨cls, s1, rcid, h1, c, v, k, u, hcm, hk, hv, hu, hid, hlive, hdead⟩ :=
    C28_correct_fate hbox prm fuel calls hc s e S ch scan dflt hok s' reps e' a t ht hg
  obtain ⟨hf, hch, hz⟩ := hok
  obtain ⟨cid, hu'⟩ := lone_stored hbox hp hf hz hs.ok h1 hcm hk ht hno hw hn hpp hx hy hxy hv hu
  refine ⟨u, hid, ?_, hlive, fun hbad w hw' => ?_⟩
  · subst hu'
    by_cases hq : 1 / 1000000 ≤ x / (x + y)
    · left
      exact ⟨hq, if_pos hq, congrArg E.toGlobal (if_pos hq), if_pos hq⟩
    · right
      exact ⟨lt_of_not_ge hq, if_neg hq, congrArg E.toGlobal (if_neg hq), if_neg hq⟩
  · obtain ⟨hla, hpdf⟩ := hdead hbad w hw'
    refine ⟨hla, hpdf, ?_⟩
    obtain ⟨cls', s1', rcid', new, d1, d2, d3, d4⟩ := correct_origin hbox hf hch hz hs e'
    obtain ⟨cls2, s2, rcid2, p1, p2, p3, p4, p5, p6, _⟩ := prepare_ok hbox hf hz hs.ok
    have q1 := d1.prep
    rw [h1, Option.some.injEq, Prod.mk.injEq, Prod.mk.injEq] at p1 q1
    obtain ⟨rfl, rfl, rfl⟩ := p1
    obtain ⟨rfl, rfl, rfl⟩ := q1
    by_cases ha : a ∈ new
    · obtain ⟨m, hm⟩ := List.mem_iff_getElem?.1 ha
      obtain ⟨j, z, _, hh⟩ := d1.new_born hm
      have hlt := (List.getElem?_eq_some_iff.1 hm).1
      rw [d1.len] at hlt
      rw [hw'] at hh
      injection hh with hh
      subst hh
      exact ⟨m, hlt.trans_le (births_length hch.ord p6), rfl⟩
    · exfalso
      obtain ⟨hvi, t', c', v', k', ht', _, hc', hk', hv', hu2⟩ := d4 a ha hg w hw'
      rw [ht] at ht'
      cases ht'
      obtain ⟨cid', hw2⟩ := lone_stored hbox hp hf hz hs.ok h1 hc' hk' ht hno hw hn hpp hx hy hxy hv' hu2
      have hr : w.r = u.r := by rw [hw2, hu']
      have hpd : w.pdf = u.pdf := by rw [hw2, hu']
      unfold viable at hvi
      rw [hr, hpd] at hvi
      rcases hbad with h | h
      · rw [if_pos h] at hvi; cases hvi
      · by_cases h6 : u.r < prm.rlim
        · rw [if_pos h6] at hvi; cases hvi
        · rw [if_neg h6, if_pos h] at hvi; cases hvi

/-- A target at 0, 1 or 4 and a scan with one report, at 100: the costs are 2 for missed and 1 for not
there, and the target lives on with existence probability `e⁻² / (e⁻² + e⁻¹)`. -/
example : ∃ (F : Nat) (s s' : St ℚ) (reps : Nat → Rep ℚ) (a : Nat) (t u : Tgt ℚ),
    run exE exPrm F (exCalls.take 1) St.empty = some s ∧
    correct exE exS exPrm exCh F [⟨100, none, 0⟩] ⟨0, none, 0⟩ s = some (s', reps) ∧
    s.heap a = some t ∧ s'.heap a = some u ∧ u.r = ew 2 / (ew 2 + ew 1) := by
  have hok : CallOk exE (.correct exS exCh [⟨100, none, 0⟩] ⟨0, none, 0⟩) :=
    ⟨exS_fov, exCh_ok, fun z _ => exE_rbox _⟩
  obtain ⟨F, s', h⟩ := C26_defined exE_box exPrm [.correct exS exCh exScan ⟨0, none, 0⟩,
    .correct exS exCh [⟨100, none, 0⟩] ⟨0, none, 0⟩]
    (by
      intro c hc
      simp only [List.mem_cons, List.not_mem_nil, or_false] at hc
      rcases hc with rfl | rfl
      · exact exOk
      · exact hok)
    (by
      intro c hc
      simp only [List.mem_cons, List.not_mem_nil, or_false] at hc
      rcases hc with rfl | rfl <;> exact ⟨exS_costs, exCh_pick⟩)
    (by simp [Call.reports, exScan])
  have h := h F (le_refl _)
  obtain ⟨s, reps0, k1, k2, k3⟩ := exFirst F
  rw [run] at h
  simp only [step, k1, Option.map_some, run] at h
  cases hx : correct exE exS exPrm exCh F [⟨100, none, 0⟩] ⟨0, none, 0⟩ s with
  | none => simp [hx] at h
  | some y =>
    obtain ⟨s2, reps⟩ := y
    have hne : s.targets ≠ [] := by intro h; rw [h] at k2; simp at k2
    obtain ⟨a, ha⟩ := List.exists_mem_of_ne_nil _ hne
    obtain ⟨t, ht, hr⟩ := k3 a ha
    have hrun : run exE exPrm F (exCalls.take 1) St.empty = some s := by
      simp only [exCalls, List.take_succ_cons, List.take_zero, run, step, k1, Option.map_some]
    obtain ⟨old, new, idx, x, q1, q2, q3, q3', _, q4, q5, _⟩ := C25_births exE_box exPrm F []
      (by simp) St.empty rfl exS exCh exScan _ exOk s reps0 k1
    have hold : old = [] := by simpa [St.empty] using q2
    rw [hold, List.nil_append] at q1
    have hz : ∃ z ∈ exScan, t.pdf = z.val := by
      obtain ⟨k, hk⟩ := List.mem_iff_getElem?.1 (by rw [← q1]; exact ha : a ∈ new)
      have hlt := (List.getElem?_eq_some_iff.1 hk).1
      obtain ⟨_, b, t', _, _, ht', _, _, hpdf⟩ := q5 k a _ _ hk
        (List.getElem?_eq_getElem (by omega)) (List.getElem?_eq_getElem (by omega))
      rw [ht] at ht'
      obtain rfl := Option.some.inj ht'
      have hj := q4 _ (List.getElem_mem (l := idx) (n := k) (by omega))
      obtain ⟨o, ho⟩ := C58_reports_kept exE_box exPrm F [] (by simp) St.empty rfl exS exCh
        exScan _ exOk s reps0 k1 _ _ (List.getElem?_eq_getElem hj)
      refine ⟨_, List.getElem_mem hj, ?_⟩
      rw [hpdf, ho]
      show _ - o + o = _
      ring
    have hp : 0 ≤ t.pdf ∧ t.pdf ≤ 4 := by
      obtain ⟨z, hz, e⟩ := hz
      rw [e]
      simp only [exScan, List.mem_cons, List.not_mem_nil, or_false] at hz
      rcases hz with rfl | rfl | rfl <;> norm_num
    have h1 := ew_pos 1
    have h2 := ew_pos 2
    have hq : (1 : ℝ) / 20 ≤ ew 2 / (ew 2 + ew 1) := by
      rw [le_div_iff₀ (by linarith)]
      have h3 : ew 1 = ew 2 * Real.exp 1 := by
        rw [ew, ew, ← Real.exp_add]; norm_num
      have h4 : Real.exp 1 ≤ 19 := by
        have := Real.exp_one_lt_three
        linarith
      rw [h3]
      nlinarith
    obtain ⟨u, _, hu, hlive, _⟩ := C103_missed exE_box exPrm F (exCalls.take 1)
      (fun c h => exCalls_ok c (List.mem_of_mem_take h)) s hrun exS exCh [⟨100, none, 0⟩] _ hok
      exCh_pick s2 reps hx a t ht
      ⟨⟨t.pdf, 0, by show (-10 : ℚ) ≤ _ ∧ _ ≤ (10 : ℚ) ∧ (-10 : ℚ) ≤ 0 ∧ (0 : ℚ) ≤ 10
                     refine ⟨by linarith, by linarith, by norm_num, by norm_num⟩,
        by show t.pdf - 1 ≤ _ ∧ _ ≤ t.pdf + 1 ∧ (0 : ℚ) ≤ 0 ∧ (0 : ℚ) ≤ 1
           refine ⟨by linarith, by linarith, by norm_num, by norm_num⟩⟩,
        decide_eq_true (by linarith : t.pdf < 5)⟩
      (by
        intro z hz
        rw [List.mem_singleton] at hz
        subst hz
        rintro ⟨x, y, hm1, hm2⟩
        have e1 : (100 : ℚ) ≤ x := hm1.1
        have e2 : x ≤ t.pdf + 1 := hm2.2.1
        linarith)
      (by show (1 : ℝ) / 100 ≤ 1; norm_num) (by show (1 : ℝ) < 100; norm_num) rfl
      (x := ew 2) (y := ew 1) (Or.inl ⟨2, rfl, rfl⟩) ⟨rfl, rfl⟩ (by linarith)
    have hur : u.r = ew 2 / (ew 2 + ew 1) := by
      rcases hu with h | h
      · exact h.2.1
      · linarith [h.1]
    exact ⟨F, s, s2, reps, a, t, u, hrun, hx, ht,
      (hlive (by rw [hur]; exact hq) (by show (1 : ℝ) ≤ 150; norm_num)).1, hur⟩

end Verif.Tracker
