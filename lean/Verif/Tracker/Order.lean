import Verif.Tracker.Defined
import Verif.Tracker.Props5
import Verif.System.Fuel
import Verif.Hyp.Order

/-!
# C107: the order of the reports in a scan

Cluster by cluster, `correct` computes the same for a scan whose reports are listed in another order.
-/

namespace Verif.Tracker

open Verif.Cluster (Cl)
open Verif.Hyp (Settled costMatrix)
open Verif.Murty (Node PickOk)

variable {P R O : Type}

/-! ## One cluster -/

/-- The cost matrix of a cluster with targets `T` (and their addresses) and reports `Z`,
`cluster.hpp:57-75`. -/
def matrixOf (E : Env P R O) (S : Sensor P R) (o : O) {M N : Nat} (T : Fin M → Nat × Tgt P) (Z : Fin N → R) :
    Lap.Cost M (N + 2 * M) :=
  costMatrix
    (fun i j => S.detCost (T i).1 (T i).2.r (E.toLocal o (T i).2.pdf) (E.rLocal o (Z j)))
    (fun i => S.missCost (T i).1 (T i).2.r (E.toLocal o (T i).2.pdf))
    (fun i => S.flsCost (T i).2.r)

theorem compute_fn {E : Env P R O} {S : Sensor P R} {prm : Params} {pick : ∀ r c, List (Node r c) → Nat}
    {fuel : Nat} {wt : ℚ → ℝ} {ts tl : List (Nat × Tgt P)} {rs rl : List R} {o : O}
    (ho : o = E.center (rs.map E.rpos ++ ts.map fun t => E.pos t.2.pdf))
    (htl : tl = ts.map fun t => (t.1, forth E o t.2)) (hrl : rl = rs.map (E.rLocal o)) {M N : Nat}
    (hM : tl.length = M) (hN : rl.length = N) :
    compute E S prm pick fuel wt ts rs =
      if M = 0 then some ⟨0, [], rl.map (E.rGlobal o), rl.map fun _ => some 1⟩
      else match Hyp.hypotheses (pick _ _) fuel wt prm.wlim prm.nhypMax (costMatrix
        (fun (i : Fin M) (j : Fin N) => S.detCost (tl.get (i.cast hM.symm)).1 (tl.get (i.cast hM.symm)).2.r
          (tl.get (i.cast hM.symm)).2.pdf (rl.get (j.cast hN.symm)))
        (fun i => S.missCost (tl.get (i.cast hM.symm)).1 (tl.get (i.cast hM.symm)).2.r
          (tl.get (i.cast hM.symm)).2.pdf)
        (fun i => S.flsCost (tl.get (i.cast hM.symm)).2.r)) with
      | none => none
      | some a =>
        if a.n = 0 then some ⟨0, tl.map fun t => back E t.2, rl.map (E.rGlobal o), rl.map fun _ => some 1⟩
        else some ⟨a.n, List.ofFn fun i : Fin M => back E (corrected E S (tl.get (i.cast hM.symm)).1
          (tl.get (i.cast hM.symm)).2 rl (List.ofFn fun j => a.R i j / a.wsum) (a.rowSum i)),
          rl.map (E.rGlobal o), List.ofFn a.rB⟩ := by
  subst hM hN
  subst htl hrl ho
  unfold compute
  dsimp only
  congr 1
  simp only [Fin.cast_eq_self]
  generalize Hyp.hypotheses _ _ _ _ _ _ = H
  cases H with
  | none => rfl
  | some a => rfl

theorem compute_ofFn {E : Env P R O} {S : Sensor P R} {prm : Params} {pick : ∀ r c, List (Node r c) → Nat}
    {fuel : Nat} {wt : ℚ → ℝ} {M N : Nat} (T : Fin M → Nat × Tgt P) (Z : Fin N → R) {o : O}
    (ho : o = E.center ((List.ofFn Z).map E.rpos ++ (List.ofFn T).map fun t => E.pos t.2.pdf)) (hM : 0 < M) :
    compute E S prm pick fuel wt (List.ofFn T) (List.ofFn Z) =
      match Hyp.hypotheses (pick _ _) fuel wt prm.wlim prm.nhypMax (matrixOf E S o T Z) with
      | none => none
      | some a =>
        if a.n = 0 then some ⟨0, List.ofFn fun i => back E (forth E o (T i).2),
          List.ofFn fun j => E.rGlobal o (E.rLocal o (Z j)), List.ofFn fun _ : Fin N => some 1⟩
        else some ⟨a.n, List.ofFn fun i : Fin M => back E (corrected E S (T i).1 (forth E o (T i).2)
          (List.ofFn fun j => E.rLocal o (Z j)) (List.ofFn fun j => a.R i j / a.wsum) (a.rowSum i)),
          List.ofFn fun j => E.rGlobal o (E.rLocal o (Z j)), List.ofFn a.rB⟩ := by
  have htl : ((List.ofFn T).map fun t => (t.1, forth E o t.2)) = List.ofFn fun i => ((T i).1, forth E o (T i).2) := by
    rw [List.map_ofFn]; rfl
  have hrl : (List.ofFn Z).map (E.rLocal o) = List.ofFn fun j => E.rLocal o (Z j) := by
    rw [List.map_ofFn]; rfl
  rw [compute_fn ho htl.symm hrl.symm (M := M) (N := N) (by simp) (by simp), if_neg hM.ne']
  unfold matrixOf
  simp only [List.get_ofFn, Fin.cast_cast, Fin.cast_eq_self, forth, List.map_ofFn]
  rfl

/-- Two targets agree in what the tracker knows about them: everything but `id` and `cid`. -/
def Peer (t u : Tgt P) : Prop := u.r = t.r ∧ u.pdf = t.pdf ∧ u.la = t.la

/-- Two sensors differ in how targets are addressed only. -/
structure SensAlike (α : Nat → Nat) (S S' : Sensor P R) : Prop where
  fov : S'.fovBox = S.fovBox
  view : S'.inView = S.inView
  lam : S'.lambdaB = S.lambdaB
  upd : ∀ a, S'.upd (α a) = S.upd a
  det : ∀ a, S'.detCost (α a) = S.detCost a
  missPdf : ∀ a, S'.missPdf (α a) = S.missPdf a
  missCost : ∀ a, S'.missCost (α a) = S.missCost a
  fls : S'.flsCost = S.flsCost
  init : S'.init = S.init

theorem SensAlike.refl (S : Sensor P R) : SensAlike id S S :=
  ⟨rfl, rfl, rfl, fun _ => rfl, fun _ => rfl, fun _ => rfl, fun _ => rfl, rfl, rfl⟩

/-- Two values of a target agree in everything but `id` and `cid`, and in the density up to the order in which
the terms of the mixture are joined.  `Q` says what was joined. -/
def Like (E : Env P R O) (Q : P → List (ℝ × P) → Prop) (u u' : Tgt P) : Prop :=
  u'.r = u.r ∧ u'.la = u.la ∧ (u'.pdf = u.pdf ∨ ∃ (p : P) (l l' : List (ℝ × P)), Q p l ∧ l.Perm l' ∧
    (∀ y ∈ l, 0 ≤ y.1) ∧ u.pdf = E.toGlobal (E.join p (l.map Prod.fst) (l.map Prod.snd)) ∧
    u'.pdf = E.toGlobal (E.join p (l'.map Prod.fst) (l'.map Prod.snd)))

/-- Two values of a target agree in everything but `cid`, and in the density up to the order in which the terms
of the mixture are joined. -/
def Alike (E : Env P R O) (Q : P → List (ℝ × P) → Prop) (u u' : Tgt P) : Prop :=
  u'.id = u.id ∧ u'.r = u.r ∧ u'.la = u.la ∧ (u'.pdf = u.pdf ∨ ∃ (p : P) (l l' : List (ℝ × P)), Q p l ∧ l.Perm l' ∧
    (∀ y ∈ l, 0 ≤ y.1) ∧ u.pdf = E.toGlobal (E.join p (l.map Prod.fst) (l.map Prod.snd)) ∧
    u'.pdf = E.toGlobal (E.join p (l'.map Prod.fst) (l'.map Prod.snd)))

theorem rep_bij {N : Nat} (f : Equiv.Perm (Fin N)) : Function.Bijective (Hyp.rep f) :=
  Finite.injective_iff_bijective.1 (Hyp.rep_inj f)

theorem rep_castSucc {N : Nat} (f : Equiv.Perm (Fin N)) (j : Fin N) : Hyp.rep f j.castSucc = (f j).castSucc := by
  unfold Hyp.rep
  rw [dif_pos (show (j.castSucc).val < N from j.isLt)]
  rfl

theorem rep_last {N : Nat} (f : Equiv.Perm (Fin N)) : Hyp.rep f (Fin.last N) = Fin.last N := by
  unfold Hyp.rep
  rw [dif_neg (by simp)]

/-- A list given in another numbering. -/
theorem ofFn_perm {α : Type} {n : Nat} {g g' : Fin n → α} {r : Fin n → Fin n} (hr : Function.Bijective r)
    (h : ∀ i, g' (r i) = g i) : (List.ofFn g).Perm (List.ofFn g') := by
  have e : g = g' ∘ Equiv.ofBijective r hr := by
    funext i
    exact (h i).symm
  rw [e]
  exact Equiv.Perm.ofFn_comp_perm _ _

/-- The densities of a target that are joined: one per report, and the one of a miss. -/
def withMiss {N : Nat} (m : P) (g : Fin N → P) (j : Fin (N + 1)) : P :=
  if h : j.val < N then g ⟨j.val, h⟩ else m

theorem withMiss_last {N : Nat} (m : P) (g : Fin N → P) : withMiss m g (Fin.last N) = m := by
  unfold withMiss
  rw [dif_neg (by simp)]

theorem withMiss_cast {N : Nat} (m : P) (g : Fin N → P) (j : Fin N) : withMiss m g j.castSucc = g j := by
  unfold withMiss
  rw [dif_pos (show (j.castSucc).val < N from j.isLt)]
  rfl

theorem withMiss_list {N : Nat} (m : P) (g : Fin N → P) :
    (List.ofFn fun j => withMiss m g j) = List.ofFn g ++ [m] := by
  rw [List.ofFn_succ_last]
  simp only [withMiss_last, withMiss_cast]

/-- The terms that the density of target `i` is joined from, `target.hpp:112-170` and `cluster.hpp:107-113`: the update
by every report and the density of a miss, with the weights of the hypotheses that associate them. -/
noncomputable def termsOf (E : Env P R O) (S : Sensor P R) (o : O) {M N : Nat} (T : Fin M → Nat × Tgt P) (Z : Fin N → R)
    (a : Hyp.Acc M N) (i : Fin M) : List (ℝ × P) :=
  List.ofFn fun j : Fin (N + 1) => (a.R i j / a.wsum,
    withMiss (S.missPdf (T i).1 (E.toLocal o (T i).2.pdf))
      (fun j => S.upd (T i).1 (E.toLocal o (T i).2.pdf) (E.rLocal o (Z j))) j)

/-- What is joined for target `i`. -/
def Summed (E : Env P R O) (S : Sensor P R) (prm : Params) (pick : ∀ r c, List (Node r c) → Nat) (wt : ℚ → ℝ) (o : O)
    {M N : Nat} (T : Fin M → Nat × Tgt P) (Z : Fin N → R) (i : Fin M) (p : P) (l : List (ℝ × P)) : Prop :=
  p = E.toLocal o (T i).2.pdf ∧ ∃ (fuel : Nat) (a : Hyp.Acc M N),
    Hyp.hypotheses (pick _ _) fuel wt prm.wlim prm.nhypMax (matrixOf E S o T Z) = some a ∧ l = termsOf E S o T Z a i

/-- One cluster given in two orders. -/
theorem compute_order {E : Env P R O} (hcen : ∀ l l' : List O, l.Perm l' → E.center l = E.center l')
    {S S' : Sensor P R} (hS : CostsOk S) {α : Nat → Nat} (hSS : SensAlike α S S') {prm : Params}
    {pick pick' : ∀ r c, List (Node r c) → Nat}
    (hp : ∀ r c, PickOk (pick r c)) (hp' : ∀ r c, PickOk (pick' r c)) {fuel fuel' : Nat} {wt : ℚ → ℝ}
    {M N : Nat} {T T' : Fin M → Nat × Tgt P} {Z Z' : Fin N → R} (e : Equiv.Perm (Fin M))
    (f : Equiv.Perm (Fin N)) (hT1 : ∀ i, (T' (e i)).1 = α (T i).1) (hT2 : ∀ i, Peer (T i).2 (T' (e i)).2)
    (hZ : ∀ j, Z' (f j) = Z j) (hM0 : 0 < M) (hM : M ≤ 30) (hw0 : ∀ q, 0 ≤ wt q) {o : O}
    (ho : o = E.center ((List.ofFn Z).map E.rpos ++ (List.ofFn T).map fun t => E.pos t.2.pdf))
    {v v' : Comp P R} (hv : compute E S prm pick fuel wt (List.ofFn T) (List.ofFn Z) = some v)
    (hv' : compute E S' prm pick' fuel' wt (List.ofFn T') (List.ofFn Z') = some v') :
    v'.n = v.n ∧ (∀ j : Fin N, v'.rs[(f j).val]? = v.rs[j.val]?) ∧
      (Settled (matrixOf E S o T Z) wt prm.wlim prm.nhypMax →
        (∀ j : Fin N, v'.rB[(f j).val]? = v.rB[j.val]?) ∧
        ∀ i : Fin M, ∃ u u', v.ts[i.val]? = some u ∧ v'.ts[(e i).val]? = some u' ∧
          Like E (Summed E S prm pick wt o T Z i) u u') := by
  have hpdf : ∀ i, (T' (e i)).2.pdf = (T i).2.pdf := fun i => (hT2 i).2.1
  have hr : ∀ i, (T' (e i)).2.r = (T i).2.r := fun i => (hT2 i).1
  have ho' : o = E.center ((List.ofFn Z').map E.rpos ++ (List.ofFn T').map fun t => E.pos t.2.pdf) := by
    rw [ho]
    apply hcen
    rw [List.map_ofFn, List.map_ofFn, List.map_ofFn, List.map_ofFn]
    refine List.Perm.append (ofFn_perm f.bijective fun j => ?_) (ofFn_perm e.bijective fun i => ?_)
    · simp only [Function.comp_apply, hZ]
    · simp only [Function.comp_apply, hpdf]
  obtain ⟨F, a, a', h1, h2, h3, h5, h4⟩ := Hyp.order_spec (det := fun i j => S.detCost (T i).1 (T i).2.r
      (E.toLocal o (T i).2.pdf) (E.rLocal o (Z j)))
    (det' := fun i j => S'.detCost (T' i).1 (T' i).2.r (E.toLocal o (T' i).2.pdf) (E.rLocal o (Z' j)))
    (miss := fun i => S.missCost (T i).1 (T i).2.r (E.toLocal o (T i).2.pdf))
    (miss' := fun i => S'.missCost (T' i).1 (T' i).2.r (E.toLocal o (T' i).2.pdf))
    (fls := fun i => S.flsCost (T i).2.r) (fls' := fun i => S'.flsCost (T' i).2.r) e f
    (fun i j => by simp only [hT1, hr, hpdf, hZ, hSS.det]) (fun i => by simp only [hT1, hr, hpdf, hSS.missCost])
    (fun i => by simp only [hr, hSS.fls])
    (Hyp.costMatrix_ok (fun _ _ => hS.det _ _ _ _) (fun _ => hS.miss _ _ _) fun _ => hS.fls _) hM0 hM
    (hp M (N + 2 * M)) (hp' M (N + 2 * M)) wt prm.wlim prm.nhypMax
  have k1 := compute_mono (le_max_left fuel F) hv
  have k2 := compute_mono (le_max_left fuel' F) hv'
  rw [compute_ofFn T Z ho hM0] at k1
  rw [compute_ofFn T' Z' ho' hM0] at k2
  have g1 := (h1 _ (le_max_right fuel F)).1
  have g2 := (h1 _ (le_max_right fuel' F)).2
  rw [show Hyp.hypotheses (pick M (N + 2 * M)) (max fuel F) wt prm.wlim prm.nhypMax (matrixOf E S o T Z) = some a
    from g1] at k1
  rw [show Hyp.hypotheses (pick' M (N + 2 * M)) (max fuel' F) wt prm.wlim prm.nhypMax (matrixOf E S' o T' Z') =
    some a' from g2] at k2
  by_cases hn : a.n = 0
  · simp only [hn, h2, if_true, Option.some.injEq] at k1 k2
    subst k1 k2
    refine ⟨rfl, fun j => ?_, fun _ => ⟨fun j => ?_, fun i => ?_⟩⟩
    · simp [hZ]
    · simp
    · refine ⟨back E (forth E o (T i).2), back E (forth E o (T' (e i)).2), by simp, by simp, ?_⟩
      exact ⟨hr i, (hT2 i).2.2, Or.inl (by simp only [back, forth, hpdf])⟩
  · simp only [hn, h2, if_false, Option.some.injEq] at k1 k2
    subst k1 k2
    refine ⟨rfl, fun j => ?_, fun hset => ?_⟩
    · simp [hZ]
    · have hR := h4 hset
      have hsum : ∀ i, a'.rowSum (e i) = a.rowSum i := by
        intro i
        unfold Hyp.Acc.rowSum
        rw [h3]
        split
        · rfl
        · rw [← (Equiv.ofBijective _ (rep_bij f)).sum_comp]
          simp only [Equiv.ofBijective_apply, hR]
      refine ⟨fun j => ?_, fun i => ?_⟩
      · have : a'.rB (f j) = a.rB j := by
          unfold Hyp.Acc.rB
          rw [h3]
          split
          · rfl
          · rw [← Equiv.sum_comp e]
            congr 2
            refine Finset.sum_congr rfl fun i _ => ?_
            rw [← rep_castSucc, hR]
        simp [this]
      · refine ⟨_, _, by rw [List.getElem?_ofFn, dif_pos i.isLt], by rw [List.getElem?_ofFn, dif_pos (e i).isLt], ?_⟩
        unfold Like
        simp only [back, corrected, forth, hsum, hpdf, hT1, hSS.upd, hSS.missPdf]
        refine ⟨trivial, ?_, ?_⟩
        · rw [(hT2 i).2.2]
        · by_cases hb : (Hyp.targetCorrect (a.rowSum i) (1 / 1000000)).2 = true
          · simp only [hb, if_true]
            refine Or.inr ⟨E.toLocal o (T i).2.pdf, termsOf E S o T Z a i,
              List.ofFn (fun j : Fin (N + 1) => (a'.R (e i) j / a'.wsum,
                withMiss (S.missPdf (T i).1 (E.toLocal o (T i).2.pdf))
                  (fun j => S.upd (T i).1 (E.toLocal o (T i).2.pdf) (E.rLocal o (Z' j))) j)), ⟨rfl, _, a, g1, rfl⟩, ?_, ?_, ?_, ?_⟩
            · unfold termsOf
              refine ofFn_perm (rep_bij f) fun j => ?_
              rw [hR, h3]
              congr 1
              induction j using Fin.lastCases with
              | last => rw [rep_last, withMiss_last, withMiss_last]
              | cast j => rw [rep_castSucc, withMiss_cast, withMiss_cast, hZ]
            · intro y hy
              unfold termsOf at hy
              obtain ⟨j, rfl⟩ := (List.mem_ofFn' _ _).1 hy
              exact div_nonneg ((h5 hw0).2 i j) (h5 hw0).1
            · simp only [termsOf, List.map_ofFn, Function.comp_def, withMiss_list]
            · simp only [List.map_ofFn, Function.comp_def, withMiss_list]
          · simp only [hb]
            exact Or.inl rfl

/-- The positions of the elements of a list that is given in another order and under other names. -/
theorem perm_index {l l' : List Nat} {g : Nat → Nat} (hg : Function.Injective g) (hnd : l.Nodup)
    (hp : (l.map g).Perm l') {M : Nat} (hM : l.length = M) :
    ∃ f : Equiv.Perm (Fin M), ∀ j : Fin M, l'[(f j).val]? = (l[j.val]?).map g := by
  subst hM
  have hl : l'.length = l.length := by rw [← hp.length_eq, List.length_map]
  have h : ∀ j : Fin l.length, ∃ i : Fin l.length, l'[i.val]? = (l[j.val]?).map g := by
    intro j
    have hm : g l[j.val] ∈ l' := hp.mem_iff.1 (List.mem_map_of_mem (List.getElem_mem j.isLt))
    obtain ⟨i, hi, e⟩ := List.mem_iff_getElem.1 hm
    refine ⟨⟨i, by omega⟩, ?_⟩
    rw [List.getElem?_eq_getElem j.isLt, Option.map_some, ← e]
    exact List.getElem?_eq_getElem hi
  choose f hf using h
  have hinj : Function.Injective f := by
    intro x y hxy
    have h1 := hf x
    rw [hxy, hf y, List.getElem?_eq_getElem x.isLt, List.getElem?_eq_getElem y.isLt, Option.map_some,
      Option.map_some] at h1
    have h2 := hg (Option.some.inj h1)
    exact Fin.ext ((List.Nodup.getElem_inj_iff hnd).1 h2.symm)
  exact ⟨Equiv.ofBijective f (Finite.injective_iff_bijective.1 hinj), hf⟩

/-- In the cluster `c` the costs settle which hypotheses are drawn. -/
def SettledIn (E : Env P R O) (S : Sensor P R) (prm : Params) (wt : ℚ → ℝ) (h0 : Nat → Option (Tgt P))
    (reps0 : Nat → Rep R) (c : Cl) : Prop :=
  ∀ (ts : List (Nat × Tgt P)) (rs : List R), readAll h0 c.targets = some ts →
    rs = (c.reports.map fun j => (reps0 j).val) →
    Settled (matrixOf E S (E.center (rs.map E.rpos ++ ts.map fun t => E.pos t.2.pdf)) ts.get rs.get) wt
      prm.wlim prm.nhypMax

/-- What is joined for the target in place `k` of the cluster `c`. -/
def Terms (E : Env P R O) (S : Sensor P R) (prm : Params) (pick : ∀ r c, List (Node r c) → Nat) (wt : ℚ → ℝ)
    (h0 : Nat → Option (Tgt P)) (reps0 : Nat → Rep R) (c : Cl) (k : Nat) (p : P) (l : List (ℝ × P)) : Prop :=
  ∃ (ts : List (Nat × Tgt P)) (rs : List R) (i : Fin ts.length), readAll h0 c.targets = some ts ∧
    rs = (c.reports.map fun j => (reps0 j).val) ∧ i.val = k ∧
    Summed E S prm pick wt (E.center (rs.map E.rpos ++ ts.map fun t => E.pos t.2.pdf)) ts.get rs.get i p l

/-- What is joined for the target at address `a` when the scan is processed in state `s`. -/
def Joined (E : Env P R O) (S : Sensor P R) (prm : Params) (ch : Choices) (scan : List (Rep R)) (dflt : Rep R) (s : St P)
    (a : Nat) (p : P) (l : List (ℝ × P)) : Prop :=
  ∃ cls s1 rcid c k, prepare E S scan s = some (cls, s1, rcid) ∧ c ∈ cls ∧ c.targets[k]? = some a ∧
    Terms E S prm ch.pick ch.wt s1.heap (initReps scan rcid dflt) c k p l

theorem Like.imp {E : Env P R O} {Q Q' : P → List (ℝ × P) → Prop} {u u' : Tgt P} (h : Like E Q u u')
    (hq : ∀ p l, Q p l → Q' p l) : Like E Q' u u' :=
  ⟨h.1, h.2.1, h.2.2.imp_right fun ⟨p, l, l', g1, g2⟩ => ⟨p, l, l', hq p l g1, g2⟩⟩

theorem compOf_order {E : Env P R O} (hcen : ∀ l l' : List O, l.Perm l' → E.center l = E.center l')
    {S S' : Sensor P R} (hS : CostsOk S) {α : Nat → Nat} (hα : Function.Injective α) (hSS : SensAlike α S S')
    {prm : Params} {pick pick' : ∀ r c, List (Node r c) → Nat}
    (hp : ∀ r c, PickOk (pick r c)) (hp' : ∀ r c, PickOk (pick' r c)) {fuel fuel' : Nat} {wt : ℚ → ℝ}
    {h0 h0' : Nat → Option (Tgt P)} {reps0 reps0' : Nat → Rep R} {c c' : Cl} {g : Nat → Nat}
    (hg : Function.Injective g) (hne : c.targets ≠ []) (hct : (c.targets.map α).Perm c'.targets)
    (htn : c.targets.Nodup) (hcr : (c.reports.map g).Perm c'.reports) (hrn : c.reports.Nodup)
    (hheap : ∀ a ∈ c.targets, ∀ t t', h0 a = some t → h0' (α a) = some t' → Peer t t')
    (hval : ∀ j ∈ c.reports, (reps0' (g j)).val = (reps0 j).val) (hw0 : ∀ q, 0 ≤ wt q) {v v' : Comp P R}
    (hv : compOf E S prm pick fuel wt h0 reps0 c = some v)
    (hv' : compOf E S' prm pick' fuel' wt h0' reps0' c' = some v') :
    v'.n = v.n ∧
      (∀ (k k' j : Nat), c.reports[k]? = some j → c'.reports[k']? = some (g j) → v'.rs[k']? = v.rs[k]?) ∧
      (SettledIn E S prm wt h0 reps0 c →
        (∀ (k k' j : Nat), c.reports[k]? = some j → c'.reports[k']? = some (g j) → v'.rB[k']? = v.rB[k]?) ∧
        ∀ (k k' b : Nat), c.targets[k]? = some b → c'.targets[k']? = some (α b) →
          ∃ u u', v.ts[k]? = some u ∧ v'.ts[k']? = some u' ∧
            Like E (Terms E S prm pick wt h0 reps0 c k) u u') := by
  have h30 : c.targets.length ≤ 30 := by
    by_contra hl
    rw [compOf_limit hS prm hp fuel wt h0 reps0 (by omega)] at hv
    cases hv
  unfold compOf at hv hv'
  cases hts : readAll h0 c.targets with
  | none => rw [hts] at hv; cases hv
  | some ts =>
  cases hts' : readAll h0' c'.targets with
  | none => rw [hts'] at hv'; cases hv'
  | some ts' =>
  simp only [hts] at hv
  simp only [hts'] at hv'
  obtain ⟨r1, r2⟩ := readAll_spec hts
  obtain ⟨r1', r2'⟩ := readAll_spec hts'
  generalize hrs : (c.reports.map fun j => (reps0 j).val) = rs at hv
  generalize hrs' : (c'.reports.map fun j => (reps0' j).val) = rs' at hv'
  have hlt : ts.length = c.targets.length := by rw [← r1, List.length_map]
  have hlt' : ts'.length = ts.length := by rw [hlt, ← List.length_map (f := α), hct.length_eq, ← r1', List.length_map]
  have hlr : rs.length = c.reports.length := by rw [← hrs, List.length_map]
  have hlr' : rs'.length = rs.length := by
    rw [hlr, ← hrs', List.length_map, ← hcr.length_eq, List.length_map]
  obtain ⟨e, he⟩ := perm_index hα htn hct (M := ts.length) hlt.symm
  obtain ⟨f, hf⟩ := perm_index hg hrn hcr (M := rs.length) hlr.symm
  have hTi : ∀ i : Fin ts.length, c.targets[i.val]? = some (ts.get i).1 := by
    intro i
    rw [← r1, List.getElem?_map, List.getElem?_eq_getElem i.isLt]; rfl
  have hTi' : ∀ i : Fin ts.length, c'.targets[i.val]? = some (ts'.get (i.cast hlt'.symm)).1 := by
    intro i
    rw [← r1', List.getElem?_map, List.getElem?_eq_getElem (by omega)]; rfl
  have hT1 : ∀ i : Fin ts.length, (ts'.get ((e i).cast hlt'.symm)).1 = α (ts.get i).1 := by
    intro i
    have := he i
    rw [hTi, hTi', Option.map_some] at this
    exact Option.some.inj this
  have hT2 : ∀ i : Fin ts.length, Peer (ts.get i).2 (ts'.get ((e i).cast hlt'.symm)).2 := by
    intro i
    refine hheap (ts.get i).1 (List.mem_of_getElem? (hTi i)) _ _ (r2 _ (List.get_mem _ _)) ?_
    rw [← hT1]
    exact r2' _ (List.get_mem _ _)
  have hZi : ∀ j : Fin rs.length, ∃ q, c.reports[j.val]? = some q ∧ rs.get j = (reps0 q).val := by
    intro j
    have h1 : j.val < c.reports.length := by omega
    refine ⟨c.reports[j.val], List.getElem?_eq_getElem h1, ?_⟩
    subst hrs
    simp
  have hZi' : ∀ (j : Fin rs.length) q, c'.reports[j.val]? = some q →
      rs'.get (j.cast hlr'.symm) = (reps0' q).val := by
    intro j q hq
    subst hrs'
    obtain ⟨h1, rfl⟩ := List.getElem?_eq_some_iff.1 hq
    simp
  have hZ : ∀ j : Fin rs.length, rs'.get ((f j).cast hlr'.symm) = rs.get j := by
    intro j
    obtain ⟨q, h1, h2⟩ := hZi j
    have h3 := hf j
    rw [h1, Option.map_some] at h3
    rw [h2, hZi' (f j) _ h3, hval q (List.mem_of_getElem? h1)]
  have hofT : List.ofFn ts.get = ts := List.ofFn_get ts
  have hofZ : List.ofFn rs.get = rs := List.ofFn_get rs
  have hofT' : List.ofFn (fun i : Fin ts.length => ts'.get (i.cast hlt'.symm)) = ts' := by
    apply List.ext_getElem
    · simp [hlt']
    · intro n _ _; simp
  have hofZ' : List.ofFn (fun i : Fin rs.length => rs'.get (i.cast hlr'.symm)) = rs' := by
    apply List.ext_getElem
    · simp [hlr']
    · intro n _ _; simp
  have hM0 : 0 < ts.length := by
    rw [hlt]
    exact List.length_pos_iff.2 hne
  obtain ⟨m1, m2, m3⟩ := compute_order hcen hS hSS hp hp' (T := ts.get)
    (T' := fun i => ts'.get (i.cast hlt'.symm)) (Z := rs.get) (Z' := fun j => rs'.get (j.cast hlr'.symm)) e f
    hT1 hT2 hZ hM0 (by omega) hw0
    (o := E.center (rs.map E.rpos ++ ts.map fun t => E.pos t.2.pdf)) (by rw [hofT, hofZ])
    (fuel := fuel) (fuel' := fuel') (v := v) (v' := v') (by rw [hofT, hofZ]; exact hv)
    (by rw [hofT', hofZ']; exact hv')
  have hcr' : c'.reports.Nodup := hcr.nodup_iff.1 (hrn.map hg)
  have hct' : c'.targets.Nodup := hct.nodup_iff.1 (htn.map hα)
  have kr : ∀ (k k' j : Nat), c.reports[k]? = some j → c'.reports[k']? = some (g j) →
      ∃ i : Fin rs.length, i.val = k ∧ (f i).val = k' := by
    intro k k' j h1 h2
    have hk := (List.getElem?_eq_some_iff.1 h1).1
    have hk' := (List.getElem?_eq_some_iff.1 h2).1
    refine ⟨⟨k, by omega⟩, rfl, ?_⟩
    have h3 := hf ⟨k, by omega⟩
    simp only [h1, Option.map_some] at h3
    exact ((List.getElem?_inj hk' hcr').1 (h2.trans h3.symm)).symm
  refine ⟨m1, ?_, fun hset => ?_⟩
  · intro k k' j h1 h2
    obtain ⟨i, rfl, rfl⟩ := kr k k' j h1 h2
    exact m2 i
  · obtain ⟨n1, n2⟩ := m3 (hset ts rs hts hrs.symm)
    refine ⟨?_, ?_⟩
    · intro k k' j h1 h2
      obtain ⟨i, rfl, rfl⟩ := kr k k' j h1 h2
      exact n1 i
    · intro k k' b h1 h2
      have hk := (List.getElem?_eq_some_iff.1 h1).1
      have hk' := (List.getElem?_eq_some_iff.1 h2).1
      have h3 := he ⟨k, by omega⟩
      simp only [h1, Option.map_some] at h3
      have h4 := (List.getElem?_inj hk' hct').1 (h2.trans h3.symm)
      obtain ⟨u, u', h5, h6, h7⟩ := n2 ⟨k, by omega⟩
      rw [← h4] at h6
      exact ⟨u, u', h5, h6, h7.imp fun p l h => ⟨ts, rs, ⟨k, by omega⟩, hts, hrs.symm, rfl, h⟩⟩

/-- A cluster of reports only, given in two orders. -/
theorem compOf_order_free {E : Env P R O} (hcen : ∀ l l' : List O, l.Perm l' → E.center l = E.center l')
    {S S' : Sensor P R} {prm : Params} {pick pick' : ∀ r c, List (Node r c) → Nat} {fuel fuel' : Nat} {wt : ℚ → ℝ}
    {h0 h0' : Nat → Option (Tgt P)} {reps0 reps0' : Nat → Rep R} {c c' : Cl} {g : Nat → Nat}
    (hg : Function.Injective g) (hct : c.targets = []) (hct' : c'.targets = [])
    (hcr : (c.reports.map g).Perm c'.reports) (hrn : c.reports.Nodup)
    (hval : ∀ j ∈ c.reports, (reps0' (g j)).val = (reps0 j).val) {v v' : Comp P R}
    (hv : compOf E S prm pick fuel wt h0 reps0 c = some v)
    (hv' : compOf E S' prm pick' fuel' wt h0' reps0' c' = some v') :
    ∀ (k k' j : Nat), c.reports[k]? = some j → c'.reports[k']? = some (g j) →
      v'.rs[k']? = v.rs[k]? ∧ v'.rB[k']? = v.rB[k]? := by
  simp only [compOf, hct, hct', readAll, compute, List.map_nil, List.append_nil, List.length_nil, if_true,
    Option.some.injEq] at hv hv'
  subst hv hv'
  intro k k' j h1 h2
  have ho : E.center (List.map E.rpos (List.map (fun j => (reps0' j).val) c'.reports)) =
      E.center (List.map E.rpos (List.map (fun j => (reps0 j).val) c.reports)) := by
    apply hcen
    refine ((hcr.map fun j => (reps0' j).val).map E.rpos).symm.trans ?_
    have : List.map ((fun j => (reps0' j).val) ∘ g) c.reports = List.map (fun j => (reps0 j).val) c.reports :=
      List.map_congr_left fun i hi => hval i hi
    rw [List.map_map (l := c.reports), this]
  simp only [List.getElem?_map, h1, h2, Option.map_some, ho, hval j (List.mem_of_getElem? h1), and_self]

/-! ## The clusters of the two scans -/

/-- Which reports `cluster` puts together. -/
theorem prepare_reports {E : Env P R O} (hbox : BoxOk E) {S : Sensor P R}
    (hf : S.fovBox.Valid) {scan : List (Rep R)} (hz : ∀ z ∈ scan, (E.rbox z.val).Valid) {s : St P}
    (hs : Ok E s fun _ => False) {cls : List Cl} {s1 : St P} {rcid : Nat → Nat}
    (e : prepare E S scan s = some (cls, s1, rcid)) :
    ∀ c ∈ cls, ∀ i ∈ c.reports, ∀ j, j ∈ c.reports ↔ j < scan.length ∧
      Relation.ReflTransGen (fun x y => ∃ b, Hits E scan s b x ∧ Hits E scan s b y) i j := by
  obtain ⟨all, a1, a2, a3⟩ := getTargets_ok hbox hf hs
  obtain ⟨qs, q1, q2, q3⟩ := queries_ok hbox hs (scan.map Rep.val) (by
    intro v hv
    obtain ⟨z, hz', rfl⟩ := List.mem_map.1 hv
    exact hz z hz')
  obtain ⟨st, c1, c2, c3, c4⟩ := Cluster.C10_clusters_cover (fun r => qs.getD r []) scan.length all a2
    (fun j => (scan[j]?.map Rep.cid).getD 0) (fun a => ((s.heap a).map Tgt.cid).getD 0)
  obtain ⟨st', d1, d2, d3, d4, d5, _⟩ :=
    Cluster.C11_clusters_are_components (fun r => qs.getD r []) scan.length all a2
    (fun j => (scan[j]?.map Rep.cid).getD 0) (fun a => ((s.heap a).map Tgt.cid).getD 0)
  rw [c1] at d1
  obtain rfl := Option.some.inj d1
  have hcls : cls = st.clusters := by
    simp only [prepare, a1, q1, c1] at e
    split at e
    · cases e
    · simp only [Option.some.injEq, Prod.mk.injEq] at e
      exact e.1.symm
  subst hcls
  have hrnd : (st.clusters.flatMap Cl.reports).Nodup := c2.nodup_iff.2 List.nodup_range
  have hrlt : ∀ c ∈ st.clusters, ∀ j ∈ c.reports, j < scan.length := fun c hc j hj =>
    List.mem_range.1 (c2.mem_iff.1 (List.mem_flatMap.2 ⟨c, hc, hj⟩))
  have hit : ∀ j, j < scan.length → ∀ a, a ∈ qs.getD j [] ↔ Hits E scan s a j := by
    intro j hj a
    obtain ⟨q, h1, _, h2⟩ := q3 j scan[j].val (by
      rw [List.getElem?_map, List.getElem?_eq_getElem hj]; rfl)
    rw [List.getD_eq_getElem?_getD, h1, Option.getD_some, h2]
    constructor
    · rintro ⟨t, ht, h⟩
      exact ⟨t, _, ht, List.getElem?_eq_getElem hj, h⟩
    · rintro ⟨t, z, ht, hz, h⟩
      rw [List.getElem?_eq_getElem hj] at hz
      obtain rfl := Option.some.inj hz
      exact ⟨t, ht, h⟩
  intro c hc i hi j
  have hil := hrlt c hc i hi
  constructor
  · intro hj
    refine ⟨hrlt c hc j hj, ?_⟩
    refine Relation.ReflTransGen.mono (fun x y => ?_) _ _ ((d3 i hil j (hrlt c hc j hj)).1 ⟨c, hc, hi, hj⟩)
    rintro ⟨hx, hy, t, h1, h2⟩
    exact ⟨t, (hit x hx t).1 h1, (hit y hy t).1 h2⟩
  · rintro ⟨hj, h⟩
    obtain ⟨c', hc', k1, k2⟩ := (d3 i hil j hj).2 (Relation.ReflTransGen.mono (fun x y => by
      rintro ⟨t, h1, h2⟩
      exact ⟨h1.lt, h2.lt, t, (hit x h1.lt t).2 h1, (hit y h2.lt t).2 h2⟩) _ _ h)
    obtain rfl := unique_of_nodup hrnd hc' hc k1 hi
    exact k2

section

variable {E : Env P R O} {scan scan' : List (Rep R)} {π : Equiv.Perm ℕ}

theorem perm_symm (hπ : ∀ j, scan'[π j]? = scan[j]?) (j : Nat) : scan[π.symm j]? = scan'[j]? := by
  rw [← hπ, Equiv.apply_symm_apply]

theorem perm_lt (hπ : ∀ j, scan'[π j]? = scan[j]?) (j : Nat) : π j < scan'.length ↔ j < scan.length := by
  rw [← not_le, ← not_le, ← List.getElem?_eq_none_iff, ← List.getElem?_eq_none_iff, hπ]

theorem perm_range (hπ : ∀ j, scan'[π j]? = scan[j]?) :
    ((List.range scan.length).map π).Perm (List.range scan'.length) := by
  refine (List.perm_ext_iff_of_nodup (List.nodup_range.map π.injective) List.nodup_range).2 fun j => ?_
  rw [List.mem_map, List.mem_range]
  constructor
  · rintro ⟨i, hi, rfl⟩
    exact (perm_lt hπ i).2 (List.mem_range.1 hi)
  · intro hj
    refine ⟨π.symm j, List.mem_range.2 ((perm_lt hπ _).1 ?_), Equiv.apply_symm_apply _ _⟩
    rwa [Equiv.apply_symm_apply]

theorem perm_mem (hπ : ∀ j, scan'[π j]? = scan[j]?) (z : Rep R) : z ∈ scan' ↔ z ∈ scan := by
  rw [List.mem_iff_getElem?, List.mem_iff_getElem?]
  constructor
  · rintro ⟨i, hi⟩
    exact ⟨π.symm i, by rw [perm_symm hπ]; exact hi⟩
  · rintro ⟨i, hi⟩
    exact ⟨π i, by rw [hπ]; exact hi⟩

theorem perm_hits (hπ : ∀ j, scan'[π j]? = scan[j]?) (s : St P) (a j : Nat) :
    Hits E scan' s a (π j) ↔ Hits E scan s a j := by
  unfold Hits
  rw [hπ]

theorem perm_gated (hπ : ∀ j, scan'[π j]? = scan[j]?) (S : Sensor P R) (s : St P) (a : Nat) :
    Gated E S scan' s a ↔ Gated E S scan s a := by
  unfold Gated
  simp only [perm_mem hπ]

variable {s s' : St P} {α : Equiv.Perm ℕ}

theorem perm_chain (hit : ∀ a j, Hits E scan' s' (α a) (π j) ↔ Hits E scan s a j) {i j : Nat}
    (h : Relation.ReflTransGen (fun x y => ∃ b, Hits E scan s b x ∧ Hits E scan s b y) i j) :
    Relation.ReflTransGen (fun x y => ∃ b, Hits E scan' s' b x ∧ Hits E scan' s' b y) (π i) (π j) := by
  refine Relation.ReflTransGen.lift π (fun x y => ?_) _ _ h
  rintro ⟨b, h1, h2⟩
  exact ⟨α b, (hit b x).2 h1, (hit b y).2 h2⟩

theorem perm_chain_iff (hit : ∀ a j, Hits E scan' s' (α a) (π j) ↔ Hits E scan s a j) (i j : Nat) :
    Relation.ReflTransGen (fun x y => ∃ b, Hits E scan' s' b x ∧ Hits E scan' s' b y) (π i) (π j) ↔
    Relation.ReflTransGen (fun x y => ∃ b, Hits E scan s b x ∧ Hits E scan s b y) i j := by
  refine ⟨fun h => ?_, perm_chain hit⟩
  have := perm_chain (π := π.symm) (α := α.symm)
    (fun a j => by rw [← hit, Equiv.apply_symm_apply, Equiv.apply_symm_apply]) h
  rwa [Equiv.symm_apply_apply, Equiv.symm_apply_apply] at this

theorem perm_linked (hit : ∀ a j, Hits E scan' s' (α a) (π j) ↔ Hits E scan s a j) (a j : Nat) :
    Linked E scan' s' (α a) (π j) ↔ Linked E scan s a j := by
  constructor
  · rintro ⟨i, h1, h2⟩
    refine ⟨π.symm i, ?_, ?_⟩
    · rw [← hit, Equiv.apply_symm_apply]
      exact h1
    · rw [← perm_chain_iff hit, Equiv.apply_symm_apply]
      exact h2
  · rintro ⟨i, h1, h2⟩
    exact ⟨π i, (hit a i).2 h1, perm_chain hit h2⟩

end

/-- The targets that a scan reaches are the same in two states. -/
structure SameReach (E : Env P R O) (S : Sensor P R) (scan : List (Rep R)) (s s' : St P) : Prop where
  there : ∀ a t, s.heap a = some t → Gated E S scan s a → ∃ t', s'.heap a = some t' ∧ SameBut t t'
  back : ∀ a t', s'.heap a = some t' → Gated E S scan s' a → ∃ t, s.heap a = some t ∧ SameBut t t'

theorem SameReach.refl {E : Env P R O} {S : Sensor P R} {scan : List (Rep R)} {s : St P} : SameReach E S scan s s :=
  ⟨fun _ t h _ => ⟨t, h, rfl, rfl, rfl, rfl⟩, fun _ t h _ => ⟨t, h, rfl, rfl, rfl, rfl⟩⟩

theorem SameReach.symm {E : Env P R O} {S : Sensor P R} {scan : List (Rep R)} {s s' : St P}
    (h : SameReach E S scan s s') : SameReach E S scan s' s := by
  constructor
  · intro a t h1 h2
    obtain ⟨t', g1, g2, g3, g4, g5⟩ := h.back a t h1 h2
    exact ⟨t', g1, g2.symm, g3.symm, g4.symm, g5.symm⟩
  · intro a t h1 h2
    obtain ⟨t', g1, g2, g3, g4, g5⟩ := h.there a t h1 h2
    exact ⟨t', g1, g2.symm, g3.symm, g4.symm, g5.symm⟩

theorem SameReach.gated {E : Env P R O} {S : Sensor P R} {scan : List (Rep R)} {s s' : St P}
    (h : SameReach E S scan s s') (a : Nat) : Gated E S scan s' a ↔ Gated E S scan s a := by
  have key : ∀ {s s' : St P}, SameReach E S scan s s' → Gated E S scan s a → Gated E S scan s' a := by
    intro s s' h hg
    obtain ⟨t, ht, h1⟩ := hg
    obtain ⟨t', h2, _, _, h3, _⟩ := h.there a t ht ⟨t, ht, h1⟩
    exact ⟨t', h2, by rw [h3]; exact h1⟩
  exact ⟨key h.symm, key h⟩

theorem SameReach.hits {E : Env P R O} {S : Sensor P R} {scan : List (Rep R)} {s s' : St P}
    (h : SameReach E S scan s s') (a j : Nat) : Hits E scan s' a j ↔ Hits E scan s a j := by
  have key : ∀ {s s' : St P}, SameReach E S scan s s' → Hits E scan s a j → Hits E scan s' a j := by
    intro s s' h hh
    obtain ⟨t, z, ht, hz, h1⟩ := hh
    obtain ⟨t', h2, _, _, h3, _⟩ := h.there a t ht ⟨t, ht, Or.inr ⟨z, List.mem_of_getElem? hz, h1⟩⟩
    exact ⟨t', z, h2, hz, by rw [h3]; exact h1⟩
  exact ⟨key h.symm, key h⟩

/-- What the scan holds after the call. -/
theorem Done.report {E : Env P R O} {S : Sensor P R} {prm : Params} {ch : Choices} {fuel : Nat}
    {scan : List (Rep R)} {dflt : Rep R} {s s2 s1 : St P} {reps : Nat → Rep R} {cls : List Cl}
    {rcid : Nat → Nat} {new : List Nat} (h : Done E S prm ch fuel scan dflt s s2 reps cls s1 rcid new)
    (hcl : ClOk s1 cls) (hperm : (cls.flatMap Cl.reports).Perm (List.range scan.length)) {j : Nat}
    (hj : j < scan.length) :
    ∃ (k : Nat) (c : Cl) (v : Comp P R), c ∈ cls ∧ c.reports[k]? = some j ∧
      compOf E S prm ch.pick fuel ch.wt s1.heap (initReps scan rcid dflt) c = some v ∧
      v.rB[k]? = some (reps j).rB ∧ v.rs[k]? = some (reps j).val := by
  obtain ⟨c, hcm, hjc⟩ := List.mem_flatMap.1 (hperm.mem_iff.2 (List.mem_range.2 hj))
  obtain ⟨i, hi⟩ := List.mem_iff_getElem?.1 hcm
  obtain ⟨v, hv⟩ := h.comps c hcm
  obtain ⟨_, l2, l3, _⟩ := compOf_length hv
  obtain ⟨f1, f2⟩ := find_reports hcl.rnd hi hjc
  obtain ⟨k, w, b, k1, k2, k3, k4⟩ := writeReps_mem (reps := initReps scan rcid dflt)
    ((List.nodup_flatMap.1 hcl.rnd).1 c hcm) l2 l3 hjc
  refine ⟨k, c, v, hcm, k1, hv, ?_, ?_⟩
  · rw [h.rep]
    unfold finalReps
    rw [f1]
    simp only [hv, k4]
    exact k3
  · rw [h.rep]
    unfold finalReps
    rw [f1]
    simp only [hv, k4]
    exact k2

/-- A cluster of one scan and the corresponding one of the other. -/
theorem cluster_order {E : Env P R O} (hbox : BoxOk E) {S S' : Sensor P R} (hf : S.fovBox.Valid)
    (hf' : S'.fovBox.Valid)
    {scan scan' : List (Rep R)} {π α : Equiv.Perm ℕ} (hπ : ∀ j, scan'[π j]? = scan[j]?)
    (hz : ∀ z ∈ scan, (E.rbox z.val).Valid) {s s' : St P} (hs : Ok E s fun _ => False)
    (hs' : Ok E s' fun _ => False) (hit : ∀ a j, Hits E scan' s' (α a) (π j) ↔ Hits E scan s a j)
    (gat : ∀ a, Gated E S' scan' s' (α a) ↔ Gated E S scan s a) {cls cls' : List Cl}
    {s1 s1' : St P} {rcid rcid' : Nat → Nat} (e : prepare E S scan s = some (cls, s1, rcid))
    (e' : prepare E S' scan' s' = some (cls', s1', rcid')) {c c' : Cl} (hc : c ∈ cls) (hc' : c' ∈ cls')
    (hcc : (∃ a, a ∈ c.targets ∧ α a ∈ c'.targets) ∨ ∃ j, j ∈ c.reports ∧ π j ∈ c'.reports) :
    (c.targets.map α).Perm c'.targets ∧ c.targets.Nodup ∧ (c.reports.map π).Perm c'.reports ∧ c.reports.Nodup := by
  have hz' : ∀ z ∈ scan', (E.rbox z.val).Valid := fun z h => hz z ((perm_mem hπ z).1 h)
  obtain ⟨_, _, _, p1, p2, _, _, _, p6, p7, _⟩ := prepare_ok hbox hf hz hs
  rw [e, Option.some.injEq, Prod.mk.injEq, Prod.mk.injEq] at p1
  obtain ⟨rfl, rfl, rfl⟩ := p1
  obtain ⟨_, _, _, q1, q2, _, _, _, q6, q7, _⟩ := prepare_ok hbox hf' hz' hs'
  rw [e', Option.some.injEq, Prod.mk.injEq, Prod.mk.injEq] at q1
  obtain ⟨rfl, rfl, rfl⟩ := q1
  have n1 := (List.nodup_flatMap.1 p2.tnd).1 c hc
  have n2 := (List.nodup_flatMap.1 p2.rnd).1 c hc
  have n1' := (List.nodup_flatMap.1 q2.tnd).1 c' hc'
  have n2' := (List.nodup_flatMap.1 q2.rnd).1 c' hc'
  have hcl := prepare_closed hbox hf hz hs e
  have hcl' := prepare_closed hbox hf' hz' hs' e'
  -- a target in one is in the other
  have hT : ∀ a, a ∈ c.targets → α a ∈ c'.targets → (c.targets.map α).Perm c'.targets ∧
      (c.reports.map π).Perm c'.reports := by
    intro a ha ha'
    obtain ⟨l1, l2⟩ := hcl c hc a ha
    obtain ⟨l1', l2'⟩ := hcl' c' hc' (α a) ha'
    refine ⟨(List.perm_ext_iff_of_nodup (n1.map α.injective) n1').2 fun b' => ?_,
      (List.perm_ext_iff_of_nodup (n2.map π.injective) n2').2 fun j => ?_⟩
    · obtain ⟨b, rfl⟩ := α.surjective b'
      rw [List.mem_map_of_injective α.injective, l2, l2']
      refine or_congr α.injective.eq_iff.symm ⟨?_, ?_⟩
      · rintro ⟨j, h1, h2⟩
        exact ⟨π j, (perm_linked hit a j).2 h1, (perm_linked hit b j).2 h2⟩
      · rintro ⟨j, h1, h2⟩
        refine ⟨π.symm j, ?_, ?_⟩
        · rw [← perm_linked hit, Equiv.apply_symm_apply]; exact h1
        · rw [← perm_linked hit, Equiv.apply_symm_apply]; exact h2
    · rw [l1', List.mem_map]
      constructor
      · rintro ⟨i, hi, rfl⟩
        exact (perm_linked hit a i).2 ((l1 i).1 hi)
      · intro h
        refine ⟨π.symm j, (l1 _).2 ?_, Equiv.apply_symm_apply _ _⟩
        rw [← perm_linked hit, Equiv.apply_symm_apply]
        exact h
  rcases hcc with ⟨a, ha, ha'⟩ | ⟨j, hj, hj'⟩
  · exact ⟨(hT a ha ha').1, n1, (hT a ha ha').2, n2⟩
  · have hR : (c.reports.map π).Perm c'.reports := by
      refine (List.perm_ext_iff_of_nodup (n2.map π.injective) n2').2 fun i => ?_
      rw [prepare_reports hbox hf' hz' hs' e' c' hc' _ hj', List.mem_map]
      constructor
      · rintro ⟨i, hi, rfl⟩
        obtain ⟨h1, h2⟩ := (prepare_reports hbox hf hz hs e c hc _ hj i).1 hi
        exact ⟨(perm_lt hπ i).2 h1, perm_chain hit h2⟩
      · rintro ⟨h1, h2⟩
        refine ⟨π.symm i, (prepare_reports hbox hf hz hs e c hc _ hj _).2 ⟨?_, ?_⟩,
          Equiv.apply_symm_apply _ _⟩
        · rw [← perm_lt hπ, Equiv.apply_symm_apply]; exact h1
        · rw [← perm_chain_iff hit, Equiv.apply_symm_apply]; exact h2
    refine ⟨?_, n1, hR, n2⟩
    by_cases hne : c.targets = []
    · rw [hne]
      have : c'.targets = [] := by
        rw [List.eq_nil_iff_forall_not_mem]
        intro b' hb
        obtain ⟨b, rfl⟩ := α.surjective b'
        have hl := ((hcl' c' hc' (α b) hb).1 (π j)).1 hj'
        have hl2 := (perm_linked hit b j).1 hl
        have hgb : Gated E S scan s b := (gat b).1 ((q7 (α b)).1 ⟨c', hc', hb⟩)
        obtain ⟨d, hd, hbd⟩ := (p7 b).2 hgb
        have hjd := ((hcl d hd b hbd).1 j).2 hl2
        obtain rfl := unique_of_nodup p2.rnd hd hc hjd hj
        rw [hne] at hbd
        cases hbd
      rw [this, List.map_nil]
    · obtain ⟨a, ha⟩ := List.exists_mem_of_ne_nil _ hne
      have hl := ((hcl c hc a ha).1 j).1 hj
      have hl2 := (perm_linked hit a j).2 hl
      have hga : Gated E S' scan' s' (α a) := (gat a).2 ((p7 a).1 ⟨c, hc, ha⟩)
      obtain ⟨d, hd, had⟩ := (q7 (α a)).2 hga
      have hjd := ((hcl' d hd (α a) had).1 (π j)).2 hl2
      obtain rfl := unique_of_nodup q2.rnd hd hc' hjd hj'
      exact (hT a ha had).1

/-! ## The whole call -/

/-- What becomes of a target at address `a` with the value `u` computed by its cluster. -/
def Fate (E : Env P R O) (S : Sensor P R) (prm : Params) (n : Nat) (s' : St P) (reps : Nat → Rep R) (a : Nat)
    (u : Tgt P) : Prop :=
  (prm.rlim ≤ u.r → E.covNorm u.pdf ≤ prm.covlim → s'.heap a = some u ∧ a ∈ s'.targets) ∧
  (u.r < prm.rlim ∨ prm.covlim < E.covNorm u.pdf →
    ∀ w, s'.heap a = some w → w.la = 'i' ∧ ∃ j < n, w.pdf = S.init (reps j).val)

theorem births_order {S : Sensor P R} {prm : Params} {ord ord' : List Nat → List Nat}
    (hord : ∀ l, (ord l).Perm l) (hord' : ∀ l, (ord' l).Perm l) {cls cls' : List Cl} {scan scan' : List (Rep R)}
    {reps reps' : Nat → Rep R} {π : Equiv.Perm ℕ} (hπ : ∀ j, scan'[π j]? = scan[j]?)
    (hperm : (cls.flatMap Cl.reports).Perm (List.range scan.length))
    (hperm' : (cls'.flatMap Cl.reports).Perm (List.range scan'.length))
    (hb : ∀ j < scan.length, (reps' (π j)).rB = (reps j).rB) :
    ((births S prm ord cls scan.length reps).map fun p => (π p.1, p.2)).Perm
      (births S prm ord' cls' scan'.length reps') := by
  classical
  have hall : (∀ j < scan'.length, ∃ b, (reps' j).rB = some b) ↔ ∀ j < scan.length, ∃ b, (reps j).rB = some b := by
    constructor
    · intro h j hj
      rw [← hb j hj]
      exact h _ ((perm_lt hπ j).2 hj)
    · intro h j hj
      have h1 : π.symm j < scan.length := by rw [← perm_lt hπ, Equiv.apply_symm_apply]; exact hj
      have := hb _ h1
      rw [Equiv.apply_symm_apply] at this
      rw [this]
      exact h _ h1
  have hsum : ((List.range scan'.length).map fun j => ((reps' j).rB).getD 0).sum =
      ((List.range scan.length).map fun j => ((reps j).rB).getD 0).sum := by
    rw [← ((perm_range hπ).map fun j => ((reps' j).rB).getD 0).sum_eq, List.map_map]
    congr 1
    apply List.map_congr_left
    intro j hj
    simp only [Function.comp_apply, hb j (List.mem_range.1 hj)]
  have hrb : rBsum scan'.length reps' = rBsum scan.length reps := by
    by_cases h : ∀ j < scan.length, ∃ b, (reps j).rB = some b
    · rw [rBsum_spec.2 ⟨hall.2 h, rfl⟩, rBsum_spec.2 ⟨h, rfl⟩, hsum]
    · have h1 : rBsum scan.length reps = none := by
        cases e : rBsum scan.length reps with
        | none => rfl
        | some x => exact absurd (rBsum_spec.1 e).1 h
      have h2 : rBsum scan'.length reps' = none := by
        cases e : rBsum scan'.length reps' with
        | none => rfl
        | some x => exact absurd (hall.1 (rBsum_spec.1 e).1) h
      rw [h1, h2]
  unfold births
  rw [hrb]
  cases rBsum scan.length reps with
  | none => exact List.Perm.refl _
  | some sum =>
    simp only
    split
    · have hp : ((ord (cls.flatMap Cl.reports)).map π).Perm (ord' (cls'.flatMap Cl.reports)) :=
        ((((hord _).trans hperm).map π).trans (perm_range hπ)).trans ((hord' _).trans hperm').symm
      have hlt : ∀ j ∈ ord (cls.flatMap Cl.reports), j < scan.length := fun j hj =>
        List.mem_range.1 (((hord _).trans hperm).mem_iff.1 hj)
      unfold bornOf
      refine List.Perm.trans ?_ (hp.filterMap _)
      rw [List.filterMap_map, List.map_filterMap]
      apply List.Perm.of_eq
      apply List.filterMap_congr
      intro j hj
      simp only [Function.comp_apply, hb j (hlt j hj)]
      cases (reps j).rB with
      | none => rfl
      | some b =>
        simp only
        split <;> rfl
    · exact List.Perm.refl _

/-- Existence probability and density of the targets started. -/
theorem Done.news {E : Env P R O} {S : Sensor P R} {prm : Params} {ch : Choices} {fuel : Nat}
    {scan : List (Rep R)} {dflt : Rep R} {s s2 s1 : St P} {reps : Nat → Rep R} {cls : List Cl}
    {rcid : Nat → Nat} {new : List Nat} (h : Done E S prm ch fuel scan dflt s s2 reps cls s1 rcid new) :
    (new.map fun b => (s2.heap b).map fun w => (w.r, w.pdf)) =
      (births S prm ch.ord cls scan.length reps).map fun p =>
        some (min p.2 prm.rBmax, S.init (reps p.1).val) := by
  apply List.ext_getElem
  · simp [h.len]
  · intro k g1 g2
    rw [List.length_map] at g1 g2
    have hb := h.born k new[k] (births S prm ch.ord cls scan.length reps)[k].1
      (births S prm ch.ord cls scan.length reps)[k].2 (List.getElem?_eq_getElem g1) (List.getElem?_eq_getElem g2)
    simp only [List.getElem_map, hb, Option.map_some]

/-- Two calls of `correct`, in states that agree about the targets that the scan reaches, with the reports in
different orders. -/
theorem local_order {E : Env P R O} (hbox : BoxOk E)
    (hcen : ∀ l l' : List O, l.Perm l' → E.center l = E.center l') (prm : Params) (fuel fuel' : Nat)
    (calls calls' : List (Call P R)) (hc : ∀ d ∈ calls, CallOk E d) (hc' : ∀ d ∈ calls', CallOk E d) (s₁ s₂ : St P)
    (e : run E prm fuel calls St.empty = some s₁) (e' : run E prm fuel' calls' St.empty = some s₂)
    (S : Sensor P R) (hS : CostsOk S) (ch ch' : Choices)
    (hwt : ch'.wt = ch.wt) (hw0 : ∀ q, 0 ≤ ch.wt q) (hp : ∀ r c, PickOk (ch.pick r c)) (hp' : ∀ r c, PickOk (ch'.pick r c))
    (scan scan' : List (Rep R)) (dflt dflt' : Rep R) (hok : CallOk E (.correct S ch scan dflt))
    (hok' : CallOk E (.correct S ch' scan' dflt')) (hsame : SameReach E S scan s₁ s₂)
    (π : Equiv.Perm ℕ) (hπ : ∀ j, scan'[π j]? = scan[j]?)
    (s' s'' : St P) (reps reps' : Nat → Rep R)
    (e1 : correct E S prm ch fuel scan dflt s₁ = some (s', reps))
    (e2 : correct E S prm ch' fuel' scan' dflt' s₂ = some (s'', reps'))
    (hset : ∀ cls s1 rcid, prepare E S scan s₁ = some (cls, s1, rcid) → ∀ c ∈ cls,
      SettledIn E S prm ch.wt s1.heap (initReps scan rcid dflt) c) :
    (∀ j < scan.length, (reps' (π j)).rB = (reps j).rB ∧ (reps' (π j)).val = (reps j).val) ∧
    (∀ a t, s₁.heap a = some t → Gated E S scan s₁ a → ∃ u u',
      Alike E (Joined E S prm ch scan dflt s₁ a) u u' ∧ u.id = t.id ∧
      Fate E S prm scan.length s' reps a u ∧ Fate E S prm scan'.length s'' reps' a u') ∧
    (∀ a t, s₁.heap a = some t → ¬ Gated E S scan s₁ a → s'.heap a = some t) ∧
    (∀ a t, s₂.heap a = some t → ¬ Gated E S scan s₂ a → s''.heap a = some t) ∧
    ∃ old new old' new', s'.targets = old ++ new ∧ s''.targets = old' ++ new' ∧ old.Sublist s₁.targets ∧
      old'.Sublist s₂.targets ∧ Stay s₁ s' old ∧ Stay s₂ s'' old' ∧ (∀ b ∈ new, b ∉ s₁.targets ∨ Gated E S scan s₁ b) ∧
      (∀ b ∈ new', b ∉ s₂.targets ∨ Gated E S scan s₂ b) ∧
      (new.map fun b => (s'.heap b).map fun w => (w.r, w.pdf)).Perm
        (new'.map fun b => (s''.heap b).map fun w => (w.r, w.pdf)) := by
  have hs := run_inv hbox (Inv.empty E) hc e
  have hs2 := run_inv hbox (Inv.empty E) hc' e'
  have e := run_mono (le_max_left fuel fuel') calls _ _ e
  have e' := run_mono (le_max_right fuel fuel') calls' _ _ e'
  have e1 := correct_mono (le_max_left fuel fuel') e1
  have e2 := correct_mono (le_max_right fuel fuel') e2
  generalize max fuel fuel' = K at e e' e1 e2
  have hf := hok.1
  have hz := hok.2.2
  have hz' := hok'.2.2
  obtain ⟨cls, s1, rcid, new, d1, n1, n2, n3⟩ := correct_origin hbox hf hok.2.1 hz hs e1
  obtain ⟨cls', s1', rcid', new', d2, n1', n2', n3'⟩ := correct_origin hbox hf hok'.2.1 hz' hs2 e2
  obtain ⟨_, _, _, p1, p2, _, _, _, p6, p7, _, p9, p10⟩ := prepare_ok hbox hf hz hs.ok
  rw [d1.prep, Option.some.injEq, Prod.mk.injEq, Prod.mk.injEq] at p1
  obtain ⟨rfl, rfl, rfl⟩ := p1
  obtain ⟨_, _, _, q1, q2, _, _, _, q6, q7, _, q9, q10⟩ := prepare_ok hbox hf hz' hs2.ok
  rw [d2.prep, Option.some.injEq, Prod.mk.injEq, Prod.mk.injEq] at q1
  obtain ⟨rfl, rfl, rfl⟩ := q1
  have hit : ∀ a j, Hits E scan' s₂ ((Equiv.refl ℕ) a) (π j) ↔ Hits E scan s₁ a j := fun a j =>
    (perm_hits hπ s₂ a j).trans (hsame.hits a j)
  have gat : ∀ a, Gated E S scan' s₂ ((Equiv.refl ℕ) a) ↔ Gated E S scan s₁ a := fun a =>
    (perm_gated hπ S s₂ a).trans (hsame.gated a)
  have hheap : ∀ c ∈ cls, ∀ a ∈ c.targets, ∀ t t', s1.heap a = some t → s1'.heap ((Equiv.refl ℕ) a) = some t' → Peer t t' := by
    intro c hcm a hac t t' h1 h2
    obtain ⟨t0, g1, g2, g3, g4, g5⟩ := p10 a t h1
    obtain ⟨t0', k1, k2, k3, k4, k5⟩ := q10 a t' h2
    obtain ⟨t1, m1, m2, m3, m4, m5⟩ := hsame.there a t0 g1 ((p7 a).1 ⟨c, hcm, hac⟩)
    rw [m1] at k1
    obtain rfl := Option.some.inj k1
    exact ⟨k3.trans (m3.trans g3.symm), k4.trans (m4.trans g4.symm), k5.trans (m5.trans g5.symm)⟩
  have hval : ∀ c ∈ cls, ∀ j ∈ c.reports, (initReps scan' rcid' dflt' (π j)).val = (initReps scan rcid dflt j).val := by
    intro c hcm j hj
    have hlt := List.mem_range.1 (p6.mem_iff.1 (List.mem_flatMap.2 ⟨c, hcm, hj⟩))
    simp only [initReps, List.getD_eq_getElem?_getD, hπ, List.getElem?_eq_getElem hlt, Option.getD_some]
  have hA : ∀ j < scan.length, (reps' (π j)).rB = (reps j).rB ∧ (reps' (π j)).val = (reps j).val := by
    intro j hj
    obtain ⟨k, c, v, hcm, hk, hv, hb, hr⟩ := d1.report p2 p6 hj
    obtain ⟨k', c', v', hcm', hk', hv', hb', hr'⟩ := d2.report q2 q6 ((perm_lt hπ j).2 hj)
    obtain ⟨g1, g2, g3, g4⟩ := cluster_order hbox hf hf hπ hz hs.ok hs2.ok hit gat d1.prep d2.prep hcm hcm'
      (Or.inr ⟨j, List.mem_of_getElem? hk, List.mem_of_getElem? hk'⟩)
    rw [hwt] at hv'
    by_cases hne : c.targets = []
    · obtain ⟨m1, m2⟩ := compOf_order_free hcen π.injective hne (by rw [hne, List.map_nil] at g1; exact g1.symm.eq_nil) g3 g4
        (hval c hcm) hv hv' k k' j hk hk'
      rw [hb, hb'] at m2
      rw [hr, hr'] at m1
      exact ⟨Option.some.inj m2, Option.some.inj m1⟩
    · obtain ⟨_, m1, m2⟩ := compOf_order hcen hS (Equiv.refl ℕ).injective (SensAlike.refl S) hp hp' π.injective hne g1 g2 g3 g4 (hheap c hcm) (hval c hcm) hw0 hv hv'
      have m1 := m1 k k' j hk hk'
      have m2 := (m2 (hset cls s1 rcid d1.prep c hcm)).1 k k' j hk hk'
      rw [hb, hb'] at m2
      rw [hr, hr'] at m1
      exact ⟨Option.some.inj m2, Option.some.inj m1⟩
  refine ⟨hA, ?_, ?_, ?_, ?_⟩
  · intro a t ht hg
    obtain ⟨_, _, _, k0, c, v, k, u, hcm, hk, hv, hu, hid, f1, f2⟩ :=
      C28_correct_fate hbox prm K calls hc s₁ e S ch scan dflt hok s' reps e1 a t ht hg
    rw [d1.prep, Option.some.injEq, Prod.mk.injEq, Prod.mk.injEq] at k0
    obtain ⟨rfl, rfl, rfl⟩ := k0
    obtain ⟨t2, ht2, hid2, _⟩ := hsame.there a t ht hg
    obtain ⟨_, _, _, k0, c', v', k', u', hcm', hk', hv', hu', hid', f1', f2'⟩ :=
      C28_correct_fate hbox prm K calls' hc' s₂ e' S ch' scan' dflt' hok' s'' reps' e2 a t2 ht2 ((gat a).2 hg)
    rw [d2.prep, Option.some.injEq, Prod.mk.injEq, Prod.mk.injEq] at k0
    obtain ⟨rfl, rfl, rfl⟩ := k0
    have hac := List.mem_of_getElem? hk
    obtain ⟨g1, g2, g3, g4⟩ := cluster_order hbox hf hf hπ hz hs.ok hs2.ok hit gat d1.prep d2.prep hcm hcm'
      (Or.inl ⟨a, hac, List.mem_of_getElem? hk'⟩)
    rw [hwt] at hv'
    obtain ⟨_, _, m2⟩ := compOf_order hcen hS (Equiv.refl ℕ).injective (SensAlike.refl S) hp hp' π.injective (List.ne_nil_of_mem hac) g1 g2 g3 g4 (hheap c hcm)
      (hval c hcm) hw0 hv hv'
    obtain ⟨w, w', m3, m4, m5⟩ := (m2 (hset cls s1 rcid d1.prep c hcm)).2 k k' a hk hk'
    rw [hu] at m3
    rw [hu'] at m4
    obtain rfl := Option.some.inj m3
    obtain rfl := Option.some.inj m4
    exact ⟨u, u', ⟨hid'.trans (hid2.trans hid.symm), m5.imp fun p l h => ⟨_, _, _, c, k, d1.prep, hcm, hk, h⟩⟩, hid, ⟨f1, f2⟩, ⟨f1', f2'⟩⟩
  · intro a t ht hg
    have hat := (hs.ok.live a).1 ⟨t, ht⟩
    rw [n2 a (fun h => (n1 a h).elim (fun h => h hat) hg) hg, ht]
  · intro a t ht hg
    have hat := (hs2.ok.live a).1 ⟨t, ht⟩
    have hg' := mt (perm_gated hπ S s₂ a).1 hg
    rw [n2' a (fun h => (n1' a h).elim (fun h => h hat) hg') hg', ht]
  · refine ⟨_, new, _, new', d1.targets, d2.targets, List.filter_sublist, List.filter_sublist,
      origin_stay hs d1 ⟨n2, n3⟩, origin_stay hs2 d2 ⟨n2', n3'⟩, n1,
      fun b hb => (n1' b hb).imp_right (perm_gated hπ S s₂ b).1, ?_⟩
    rw [d1.news, d2.news]
    refine List.Perm.trans ?_ ((births_order hok.2.1.ord hok'.2.1.ord hπ p6 q6 fun j hj => (hA j hj).1).map _)
    rw [List.map_map]
    apply List.Perm.of_eq
    apply List.map_congr_left
    rintro ⟨j, x⟩ hm
    simp only [Function.comp_apply, (hA j (births_mem hok.2.1.ord p6 hm).1).2]

/-- **C107** Let `scan'` hold the reports of `scan` in another order, and let `correct` be called with either,
in the same state; scheduler, allocator and priority queue may choose differently.  If the costs settle in every
cluster which hypotheses are drawn, every report ends up with the same value and the same unexplained
probability, every target that the scan reaches gets the same existence probability and a density joined from
the same terms, every other target stays as it is, and the same number of targets is started, with the same
existence probabilities and densities. -/
theorem C107_order {E : Env P R O} (hbox : BoxOk E)
    (hcen : ∀ l l' : List O, l.Perm l' → E.center l = E.center l') (prm : Params) (fuel fuel' : Nat)
    (calls : List (Call P R)) (hc : ∀ d ∈ calls, CallOk E d) (s : St P)
    (e : run E prm fuel calls St.empty = some s) (S : Sensor P R) (hS : CostsOk S) (ch ch' : Choices)
    (hwt : ch'.wt = ch.wt) (hw0 : ∀ q, 0 ≤ ch.wt q) (hp : ∀ r c, PickOk (ch.pick r c)) (hp' : ∀ r c, PickOk (ch'.pick r c))
    (scan scan' : List (Rep R)) (dflt dflt' : Rep R) (hok : CallOk E (.correct S ch scan dflt))
    (hok' : CallOk E (.correct S ch' scan' dflt')) (π : Equiv.Perm ℕ) (hπ : ∀ j, scan'[π j]? = scan[j]?)
    (s' s'' : St P) (reps reps' : Nat → Rep R)
    (e1 : correct E S prm ch fuel scan dflt s = some (s', reps))
    (e2 : correct E S prm ch' fuel' scan' dflt' s = some (s'', reps'))
    (hset : ∀ cls s1 rcid, prepare E S scan s = some (cls, s1, rcid) → ∀ c ∈ cls,
      SettledIn E S prm ch.wt s1.heap (initReps scan rcid dflt) c) :
    (∀ j < scan.length, (reps' (π j)).rB = (reps j).rB ∧ (reps' (π j)).val = (reps j).val) ∧
    (∀ a t, s.heap a = some t → Gated E S scan s a → ∃ u u',
      Alike E (Joined E S prm ch scan dflt s a) u u' ∧ u.id = t.id ∧
      Fate E S prm scan.length s' reps a u ∧ Fate E S prm scan'.length s'' reps' a u') ∧
    (∀ a t, s.heap a = some t → ¬ Gated E S scan s a → s'.heap a = some t ∧ s''.heap a = some t) ∧
    ∃ old new old' new', s'.targets = old ++ new ∧ s''.targets = old' ++ new' ∧ old.Sublist s.targets ∧
      old'.Sublist s.targets ∧ Stay s s' old ∧ Stay s s'' old' ∧
      (new.map fun b => (s'.heap b).map fun w => (w.r, w.pdf)).Perm
        (new'.map fun b => (s''.heap b).map fun w => (w.r, w.pdf)) := by
  obtain ⟨h1, h2, h3, h4, old, new, old', new', g1, g2, g3, g4, g6, g7, _, _, g5⟩ := local_order hbox hcen prm (max fuel fuel') (max fuel fuel') calls calls hc hc s s
    (run_mono (le_max_left _ _) calls _ _ e) (run_mono (le_max_left _ _) calls _ _ e) S hS ch ch' hwt hw0 hp hp' scan scan'
    dflt dflt' hok hok' SameReach.refl π hπ s' s'' reps reps' (correct_mono (le_max_left _ _) e1)
    (correct_mono (le_max_right _ _) e2) hset
  exact ⟨h1, h2, fun a t ht hg => ⟨h3 a t ht hg, h4 a t ht hg⟩, old, new, old', new', g1, g2, g3, g4,
    g6, g7, g5⟩

/-- Without limits the costs settle everything. -/
theorem unlimited_settled {E : Env P R O} (hbox : BoxOk E) {prm : Params} {fuel : Nat} {s : St P} (hs : Inv E s)
    {S : Sensor P R} (hS : CostsOk S) {ch : Choices} (hw0 : ∀ q, 0 ≤ ch.wt q) (hp : ∀ r c, PickOk (ch.pick r c))
    {scan : List (Rep R)} {dflt : Rep R} (hok : CallOk E (.correct S ch scan dflt)) {s' : St P} {reps : Nat → Rep R}
    (e1 : correct E S prm ch fuel scan dflt s = some (s', reps)) (hwl : prm.wlim ≤ 0)
    (hn : ((scan.length : ℝ) + 60) ^ 30 ≤ prm.nhypMax) :
    ∀ cls s1 rcid, prepare E S scan s = some (cls, s1, rcid) → ∀ c ∈ cls,
      SettledIn E S prm ch.wt s1.heap (initReps scan rcid dflt) c := by
  intro cls s1 rcid hprep c hcm ts rs hts hrs
  obtain ⟨_, _, _, _, d1, _⟩ := correct_origin hbox hok.1 hok.2.1 hok.2.2 hs e1
  have h1 := d1.prep
  rw [hprep, Option.some.injEq, Prod.mk.injEq, Prod.mk.injEq] at h1
  obtain ⟨rfl, rfl, rfl⟩ := h1
  obtain ⟨_, _, _, p1, p2, _, _, _, p6, _⟩ := prepare_ok hbox hok.1 hok.2.2 hs.ok
  rw [hprep, Option.some.injEq, Prod.mk.injEq, Prod.mk.injEq] at p1
  obtain ⟨rfl, rfl, rfl⟩ := p1
  obtain ⟨v, hv⟩ := d1.comps c hcm
  have hM : ts.length ≤ 30 := by
    have h2 := (readAll_spec hts).1
    by_contra hl
    rw [compOf_limit hS prm hp fuel ch.wt _ _ (by rw [← h2, List.length_map]; omega)] at hv
    cases hv
  have hN : rs.length ≤ scan.length := by
    rw [hrs, List.length_map]
    have h3 : c.reports.Nodup := (List.nodup_flatMap.1 p2.rnd).1 c hcm
    have h4 := (List.subperm_of_subset h3 fun j hj =>
      p6.mem_iff.1 (List.mem_flatMap.2 ⟨c, hcm, hj⟩)).length_le
    simpa using h4
  refine Or.inr ⟨hwl, hw0, le_trans ?_ hn⟩
  by_cases h0 : rs.length + 2 * ts.length = 0
  · have h5 : ts.length = 0 := by omega
    rw [h5]
    have h6 : (1 : ℝ) ≤ (scan.length : ℝ) + 60 := by
      have := Nat.cast_nonneg (α := ℝ) scan.length
      linarith
    simpa using one_le_pow₀ h6
  · have h5 : (1 : ℝ) ≤ ((rs.length + 2 * ts.length : ℕ) : ℝ) := by exact_mod_cast Nat.one_le_iff_ne_zero.2 h0
    have h6 : ((rs.length + 2 * ts.length : ℕ) : ℝ) ≤ (scan.length : ℝ) + 60 := by
      have : rs.length + 2 * ts.length ≤ scan.length + 60 := by omega
      exact_mod_cast this
    calc ((rs.length + 2 * ts.length : ℕ) : ℝ) ^ ts.length ≤ ((rs.length + 2 * ts.length : ℕ) : ℝ) ^ 30 :=
          pow_le_pow_right₀ h5 hM
      _ ≤ _ := pow_le_pow_left₀ (by linarith) h6 30

/-- **C107, no limits** If the weights of the hypotheses are not limited and their number not below
`(n + 60) ^ 30` for a scan of `n` reports, the costs settle everything: the order never matters. -/
theorem C107_unlimited {E : Env P R O} (hbox : BoxOk E)
    (hcen : ∀ l l' : List O, l.Perm l' → E.center l = E.center l') (prm : Params) (fuel fuel' : Nat)
    (calls : List (Call P R)) (hc : ∀ d ∈ calls, CallOk E d) (s : St P)
    (e : run E prm fuel calls St.empty = some s) (S : Sensor P R) (hS : CostsOk S) (ch ch' : Choices)
    (hwt : ch'.wt = ch.wt) (hw0 : ∀ q, 0 ≤ ch.wt q) (hp : ∀ r c, PickOk (ch.pick r c))
    (hp' : ∀ r c, PickOk (ch'.pick r c)) (scan scan' : List (Rep R)) (dflt dflt' : Rep R)
    (hok : CallOk E (.correct S ch scan dflt)) (hok' : CallOk E (.correct S ch' scan' dflt'))
    (π : Equiv.Perm ℕ) (hπ : ∀ j, scan'[π j]? = scan[j]?) (s' s'' : St P) (reps reps' : Nat → Rep R)
    (e1 : correct E S prm ch fuel scan dflt s = some (s', reps))
    (e2 : correct E S prm ch' fuel' scan' dflt' s = some (s'', reps')) (hwl : prm.wlim ≤ 0)
    (hn : ((scan.length : ℝ) + 60) ^ 30 ≤ prm.nhypMax) :
    (∀ j < scan.length, (reps' (π j)).rB = (reps j).rB ∧ (reps' (π j)).val = (reps j).val) ∧
    (∀ a t, s.heap a = some t → Gated E S scan s a → ∃ u u',
      Alike E (Joined E S prm ch scan dflt s a) u u' ∧ u.id = t.id ∧
      Fate E S prm scan.length s' reps a u ∧ Fate E S prm scan'.length s'' reps' a u') ∧
    (∀ a t, s.heap a = some t → ¬ Gated E S scan s a → s'.heap a = some t ∧ s''.heap a = some t) ∧
    ∃ old new old' new', s'.targets = old ++ new ∧ s''.targets = old' ++ new' ∧ old.Sublist s.targets ∧
      old'.Sublist s.targets ∧ Stay s s' old ∧ Stay s s'' old' ∧
      (new.map fun b => (s'.heap b).map fun w => (w.r, w.pdf)).Perm
        (new'.map fun b => (s''.heap b).map fun w => (w.r, w.pdf)) := by
  exact C107_order hbox hcen prm fuel fuel' calls hc s e S hS ch ch' hwt hw0 hp hp' scan scan' dflt dflt' hok hok'
    π hπ s' s'' reps reps' e1 e2
    (unlimited_settled hbox (run_inv hbox (Inv.empty E) hc e) hS hw0 hp hok e1 hwl hn)

end Verif.Tracker
