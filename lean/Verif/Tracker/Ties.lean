import Verif.Tracker.Order
import Verif.Tracker.Seen
import Verif.Hyp.Ties

/-!
# C107: reports that are equally likely
-/

namespace Verif.Tracker

open Verif.Cluster (Cl)
open Verif.Hyp (costMatrix)
open Verif.Lap (XR)
open Verif.Lap.XR (fin)
open Verif.Murty (Node PickOk)

variable {P R O : Type}

theorem queries_boxes {E : Env P R O} (s : St P) : ∀ l l' : List R, l.map E.rbox = l'.map E.rbox →
    queries E s l = queries E s l'
  | [], [], _ => rfl
  | [], _ :: _, h => by simp at h
  | _ :: _, [], h => by simp at h
  | x :: l, y :: l', h => by
    rw [List.map_cons, List.map_cons, List.cons.injEq] at h
    simp only [queries]
    rw [h.1, queries_boxes s l l' h.2]

/-- The clusters depend on the boxes of the reports only. -/
theorem prepare_boxes {E : Env P R O} {S : Sensor P R} {s : St P} {scan scan' : List (Rep R)}
    (hb : scan.map (fun z => E.rbox z.val) = scan'.map fun z => E.rbox z.val)
    (hc : scan.map Rep.cid = scan'.map Rep.cid) : prepare E S scan s = prepare E S scan' s := by
  have hl : scan.length = scan'.length := by
    have := congrArg List.length hc
    simpa using this
  have hq : queries E s (scan.map Rep.val) = queries E s (scan'.map Rep.val) := by
    apply queries_boxes
    rw [List.map_map, List.map_map]
    exact hb
  have hcc : (fun j : Nat => (scan[j]?.map Rep.cid).getD 0) = fun j => (scan'[j]?.map Rep.cid).getD 0 := by
    funext j
    rw [← List.getElem?_map, ← List.getElem?_map, hc]
  unfold prepare
  rw [hq, hcc, hl]

/-- Four things that are in one cluster: a target and three reports that touch it and no other target. -/
theorem trio_cluster {E : Env P R O} (hbox : BoxOk E) {S : Sensor P R} (hf : S.fovBox.Valid)
    {scan : List (Rep R)} (hlen : scan.length = 3) (hz : ∀ z ∈ scan, (E.rbox z.val).Valid) {s : St P}
    (hs : Ok E s fun _ => False) {cls : List Cl} {s1 : St P} {rcid : Nat → Nat}
    (e : prepare E S scan s = some (cls, s1, rcid)) {a : Nat} {t : Tgt P} (ht : s.heap a = some t)
    (honly : ∀ b t', s.heap b = some t' → b = a) (hit : ∀ j < 3, Hits E scan s a j) :
    ∃ c ∈ cls, c.targets = [a] ∧ c.reports.Perm [0, 1, 2] := by
  obtain ⟨_, _, _, p1, p2, p3, p4, _, p6, p7, _, _, p10⟩ := prepare_ok hbox hf hz hs
  rw [e, Option.some.injEq, Prod.mk.injEq, Prod.mk.injEq] at p1
  obtain ⟨rfl, rfl, rfl⟩ := p1
  obtain ⟨c, hc, hac⟩ := (p7 a).2 ⟨t, ht, Or.inr (by
    obtain ⟨t', z, h1, h2, h3⟩ := hit 0 (by decide)
    rw [ht] at h1
    cases h1
    exact ⟨z, List.mem_of_getElem? h2, h3⟩)⟩
  obtain ⟨h1, h2⟩ := prepare_closed hbox hf hz hs e c hc a hac
  refine ⟨c, hc, List.perm_singleton.1 ?_, ?_⟩
  · rw [List.perm_ext_iff_of_nodup ((List.nodup_flatMap.1 p2.tnd).1 c hc) (by simp)]
    intro b
    rw [List.mem_singleton]
    constructor
    · intro hb
      obtain ⟨t', ht', _⟩ := (p7 b).1 ⟨c, hc, hb⟩
      exact honly b t' ht'
    · rintro rfl
      exact hac
  · rw [List.perm_ext_iff_of_nodup ((List.nodup_flatMap.1 p2.rnd).1 c hc) (by decide)]
    intro j
    constructor
    · intro hj
      have := List.mem_range.1 (p6.mem_iff.1 (List.mem_flatMap.2 ⟨c, hc, hj⟩))
      rw [hlen] at this
      simp
      omega
    · intro hj
      refine (h1 j).2 ⟨j, hit j ?_, Relation.ReflTransGen.refl⟩
      simp at hj
      omega

/-- The birth probabilities of a cluster of one target and three reports, from its costs. -/
theorem trio_compute {E : Env P R O} {S : Sensor P R} {prm : Params} {pick : ∀ r c, List (Node r c) → Nat}
    {fuel : Nat} {wt : ℚ → ℝ} {a : Nat} {u : Tgt P} {rs : List R} (hlen : rs.length = 3) {o : O}
    (ho : o = E.center (rs.map E.rpos ++ [E.pos u.pdf])) {D : Fin 3 → XR} {m f : XR}
    (hD : ∀ (k : Fin 3) z, rs[k.val]? = some z → S.detCost a u.r (E.toLocal o u.pdf) (E.rLocal o z) = D k)
    (hm : S.missCost a u.r (E.toLocal o u.pdf) = m) (hf : S.flsCost u.r = f) {v : Comp P R}
    (e : compute E S prm pick fuel wt [(a, u)] rs = some v) :
    ∃ acc : Hyp.Acc 1 3, Hyp.hypotheses (pick _ _) fuel wt prm.wlim prm.nhypMax
        (costMatrix (fun _ => D) (fun _ => m) fun _ => f) = some acc ∧
      (acc.n ≠ 0 → v.rB = List.ofFn acc.rB) := by
  rw [compute_fn (M := 1) (N := 3) (o := o) (by simpa using ho) rfl rfl (by simp) (by simp [hlen]),
    if_neg (by decide)] at e
  split at e
  · cases e
  · rename_i acc hacc
    refine ⟨acc, ?_, ?_⟩
    · rw [← hacc]
      congr 2
      · funext i k
        rw [Subsingleton.elim i 0]
        have hk : k.val < rs.length := by rw [hlen]; exact k.isLt
        have := hD k rs[k.val] (List.getElem?_eq_getElem hk)
        rw [← this]
        simp [forth]
      · funext i
        rw [Subsingleton.elim i 0, ← hm]
        simp [forth]
      · funext i
        rw [Subsingleton.elim i 0, ← hf]
        simp [forth]
    · intro hn
      rw [if_neg hn] at e
      injection e with e
      rw [← e]

/-- **C107, ties** A target that is alone, and three reports that touch it: one explains it well, the other two
are equally likely to be of it, but little, less than `w_lim` of what counts.  Then one of the two is counted
with its probability and the other one not at all, and listing them in another order exchanges their parts. -/
theorem C107_tied {E : Env P R O} (hbox : BoxOk E)
    (hcen : ∀ l l' : List O, l.Perm l' → E.center l = E.center l') (prm : Params) (fuel : Nat)
    (calls : List (Call P R)) (hc : ∀ d ∈ calls, CallOk E d) (s : St P)
    (e : run E prm fuel calls St.empty = some s) (S : Sensor P R) (hS : CostsOk S) (ch : Choices)
    (hp : ∀ r c, PickOk (ch.pick r c)) (z0 z1 z2 dflt : Rep R) (hok : CallOk E (.correct S ch [z0, z1, z2] dflt))
    (hbx : E.rbox z1.val = E.rbox z2.val) (hcid : z1.cid = z2.cid) {a : Nat} {t : Tgt P}
    (ht : s.heap a = some t) (honly : ∀ b t', s.heap b = some t' → b = a)
    (hit : (E.rbox z0.val).Touch (E.box t.pdf) ∧ (E.rbox z1.val).Touch (E.box t.pdf))
    (o : O) (ho : o = E.center [E.rpos z0.val, E.rpos z1.val, E.rpos z2.val, E.pos t.pdf]) {q0 q : ℚ}
    (c0 : S.detCost a t.r (E.toLocal o t.pdf) (E.rLocal o z0.val) = fin q0)
    (c1 : S.detCost a t.r (E.toLocal o t.pdf) (E.rLocal o z1.val) = fin q)
    (c2 : S.detCost a t.r (E.toLocal o t.pdf) (E.rLocal o z2.val) = fin q) (hlt : q0 < q)
    (hm : ∀ q', S.missCost a t.r (E.toLocal o t.pdf) = fin q' → q < q')
    (hfl : ∀ q', S.flsCost t.r = fin q' → q < q') (hw0 : 0 < ch.wt q0) (hw : 0 < ch.wt q)
    (hlim : ch.wt q < prm.wlim * (ch.wt q0 + ch.wt q)) (hw1 : prm.wlim ≤ 1) (hn : 1 < prm.nhypMax)
    (s' s'' : St P) (reps reps' : Nat → Rep R)
    (e1 : correct E S prm ch fuel [z0, z1, z2] dflt s = some (s', reps))
    (e2 : correct E S prm ch fuel [z0, z2, z1] dflt s = some (s'', reps')) :
    ((reps 1).rB = some (1 - ch.wt q / (ch.wt q0 + ch.wt q)) ∧ (reps 2).rB = some 1 ∧
      (reps' 1).rB = some (1 - ch.wt q / (ch.wt q0 + ch.wt q)) ∧ (reps' 2).rB = some 1) ∨
    ((reps 1).rB = some 1 ∧ (reps 2).rB = some (1 - ch.wt q / (ch.wt q0 + ch.wt q)) ∧
      (reps' 1).rB = some 1 ∧ (reps' 2).rB = some (1 - ch.wt q / (ch.wt q0 + ch.wt q))) := by
  have hs := run_inv hbox (Inv.empty E) hc e
  have hf := hok.1
  have hz := hok.2.2
  have hok' : CallOk E (.correct S ch [z0, z2, z1] dflt) := ⟨hok.1, hok.2.1, fun z h => hz z (by
    simp only [List.mem_cons, List.not_mem_nil, or_false] at h ⊢
    tauto)⟩
  obtain ⟨cls, s1, rcid, new, d1, _⟩ := correct_origin hbox hf hok.2.1 hz hs e1
  obtain ⟨cls', s1', rcid', new', d2, _⟩ := correct_origin hbox hf hok'.2.1 hok'.2.2 hs e2
  have hprep : prepare E S [z0, z2, z1] s = prepare E S [z0, z1, z2] s :=
    prepare_boxes (by simp [hbx]) (by simp [hcid])
  have hpp := d2.prep
  rw [hprep, d1.prep, Option.some.injEq, Prod.mk.injEq, Prod.mk.injEq] at hpp
  obtain ⟨rfl, rfl, rfl⟩ := hpp
  obtain ⟨_, _, _, p1, p2, _, _, _, p6, p7, _, p9, p10⟩ := prepare_ok hbox hf hz hs.ok
  rw [d1.prep, Option.some.injEq, Prod.mk.injEq, Prod.mk.injEq] at p1
  obtain ⟨rfl, rfl, rfl⟩ := p1
  obtain ⟨c, hcm, hct, hcr⟩ := trio_cluster hbox hf (by rfl) hz hs.ok d1.prep ht honly (by
    intro j hj
    have : j = 0 ∨ j = 1 ∨ j = 2 := by omega
    rcases this with rfl | rfl | rfl
    · exact ⟨t, z0, ht, rfl, hit.1⟩
    · exact ⟨t, z1, ht, rfl, hit.2⟩
    · exact ⟨t, z2, ht, rfl, hbx ▸ hit.2⟩)
  have hl3 : c.reports.length = 3 := hcr.length_eq
  have hnd : c.reports.Nodup := hcr.nodup_iff.2 (by decide)
  obtain ⟨u, hu, su⟩ := p9 a t ht
  -- the position of a report in the cluster
  have hk : ∀ j < 3, ∃ k : Fin 3, c.reports[k.val]? = some j := by
    intro j hj
    have : j ∈ c.reports := hcr.mem_iff.2 (by simp; omega)
    obtain ⟨k, hk⟩ := List.mem_iff_getElem?.1 this
    have hlt := (List.getElem?_eq_some_iff.1 hk).1
    exact ⟨⟨k, by omega⟩, hk⟩
  obtain ⟨k0, hk0⟩ := hk 0 (by decide)
  obtain ⟨k1, hk1⟩ := hk 1 (by decide)
  obtain ⟨k2, hk2⟩ := hk 2 (by decide)
  have hinj : ∀ {k k' : Fin 3} {j j' : Nat}, c.reports[k.val]? = some j → c.reports[k'.val]? = some j' → j ≠ j' →
      k ≠ k' := by
    rintro k k' j j' h h' hne rfl
    rw [h] at h'
    exact hne (Option.some.inj h')
  have hall : ∀ k : Fin 3, k = k0 ∨ k = k1 ∨ k = k2 := by
    exact (by decide : ∀ k0 k1 k2 : Fin 3, k0 ≠ k1 → k0 ≠ k2 → k1 ≠ k2 → ∀ k, k = k0 ∨ k = k1 ∨ k = k2) k0 k1 k2
      (hinj hk0 hk1 (by decide)) (hinj hk0 hk2 (by decide)) (hinj hk1 hk2 (by decide))
  -- one run
  have one : ∀ (y1 y2 : Rep R) (sx : St P) (rx : Nat → Rep R) (nx : List Nat),
      S.detCost a t.r (E.toLocal o t.pdf) (E.rLocal o y1.val) = fin q →
      S.detCost a t.r (E.toLocal o t.pdf) (E.rLocal o y2.val) = fin q →
      [E.rpos y1.val, E.rpos y2.val].Perm [E.rpos z1.val, E.rpos z2.val] →
      Done E S prm ch fuel [z0, y1, y2] dflt s sx rx cls s1 rcid nx →
      ∃ acc : Hyp.Acc 1 3, Hyp.hypotheses (ch.pick _ _) fuel ch.wt prm.wlim prm.nhypMax
          (costMatrix (fun _ k => if k = k0 then fin q0 else fin q)
            (fun _ => S.missCost a t.r (E.toLocal o t.pdf)) fun _ => S.flsCost t.r) = some acc ∧
        (acc.n ≠ 0 → (rx 1).rB = acc.rB k1 ∧ (rx 2).rB = acc.rB k2) := by
    intro y1 y2 sx rx nx g1 g2 gp d
    obtain ⟨v, hv⟩ := d.comps c hcm
    have hvv := hv
    unfold compOf at hv
    simp only [hct, readAll, hu] at hv
    have hval : ∀ k : Fin 3, (c.reports.map fun j => (initReps [z0, y1, y2] rcid dflt j).val)[k.val]? =
        some (if k = k0 then z0.val else if k = k1 then y1.val else y2.val) := by
      intro k
      rw [List.getElem?_map]
      rcases hall k with rfl | rfl | rfl
      · rw [hk0, if_pos rfl]
        rfl
      · rw [hk1, if_neg (hinj hk1 hk0 (by decide)), if_pos rfl]
        rfl
      · rw [hk2, if_neg (hinj hk2 hk0 (by decide)), if_neg (hinj hk2 hk1 (by decide))]
        rfl
    have hoo : o = E.center ((c.reports.map fun j => (initReps [z0, y1, y2] rcid dflt j).val).map E.rpos ++
        [E.pos u.pdf]) := by
      rw [ho, su.2.2.1]
      apply hcen
      have h1 : ((c.reports.map fun j => (initReps [z0, y1, y2] rcid dflt j).val).map E.rpos).Perm
          [E.rpos z0.val, E.rpos y1.val, E.rpos y2.val] := (hcr.map _).map _
      have h2 : [E.rpos z0.val, E.rpos y1.val, E.rpos y2.val].Perm [E.rpos z0.val, E.rpos z1.val, E.rpos z2.val] :=
        gp.cons _
      exact ((h1.trans h2).append_right [E.pos t.pdf]).symm
    obtain ⟨acc, a1, a2⟩ := trio_compute (by simp [hl3]) hoo
      (D := fun k => if k = k0 then fin q0 else fin q) (by
        intro k z hz
        rw [hval k] at hz
        injection hz with hz
        rw [su.2.1, su.2.2.1]
        split at hz
        · rw [if_pos ‹_›, ← hz]; exact c0
        · rw [if_neg ‹_›]
          split at hz
          · rw [← hz]; exact g1
          · rw [← hz]; exact g2) (by rw [su.2.1, su.2.2.1]) (by rw [su.2.1]) hv
    refine ⟨acc, a1, fun hn => ?_⟩
    have hrep : ∀ j < 3, ∀ k : Fin 3, c.reports[k.val]? = some j → (rx j).rB = acc.rB k := by
      intro j hj k hkj
      obtain ⟨k', c', v', hcm', hk', hv', hb', _⟩ := d.report p2 p6 (j := j) hj
      have hcc : c' = c := by
        obtain ⟨i, hi⟩ := List.mem_iff_getElem?.1 hcm
        obtain ⟨i', hi'⟩ := List.mem_iff_getElem?.1 hcm'
        have f1 := (find_reports p2.rnd hi (List.mem_of_getElem? hkj)).1
        have f2 := (find_reports p2.rnd hi' (List.mem_of_getElem? hk')).1
        rw [f1] at f2
        exact (Option.some.inj f2).symm
      subst hcc
      rw [hvv] at hv'
      obtain rfl := Option.some.inj hv'
      have hkk : k' = k.val := (List.getElem?_inj (List.getElem?_eq_some_iff.1 hk').1 hnd).1 (hk'.trans hkj.symm)
      rw [hkk, a2 hn, List.getElem?_ofFn, dif_pos k.isLt] at hb'
      exact (Option.some.inj hb').symm
    exact ⟨hrep 1 (by decide) k1 hk1, hrep 2 (by decide) k2 hk2⟩
  obtain ⟨acc, a1, a2⟩ := one z1 z2 s' reps new c1 c2 (List.Perm.refl _) d1
  obtain ⟨acc', b1, b2⟩ := one z2 z1 s'' reps' new' c2 c1 (List.Perm.swap _ _ _) d2
  rw [a1] at b1
  obtain rfl := Option.some.inj b1
  have n1 := hinj hk1 hk0 (by decide)
  have n2 := hinj hk2 hk0 (by decide)
  have n3 := hinj hk1 hk2 (by decide)
  obtain ⟨r1, r2, r3⟩ := Hyp.tied_spec (j0 := k0) (j1 := k1) (j2 := k2) (q0 := q0) (q := q) n3
    (if_pos rfl) (if_neg n1) (if_neg n2) hlt
    (fun j q' h0 h1 h2 _ => ((hall j).elim h0 (Or.rec h1 h2)).elim)
    (Hyp.costMatrix_ok (fun i j => by
        split
        · exact Or.inr ⟨_, rfl⟩
        · exact Or.inr ⟨_, rfl⟩)
      (fun _ => hS.miss _ _ _) (fun _ => hS.fls _)) hm hfl hw0 hw hlim hw1 hn (hp _ _) a1
  obtain ⟨x1, x2⟩ := a2 (by rw [r1]; decide)
  obtain ⟨y1, y2⟩ := b2 (by rw [r1]; decide)
  have hrB : ∀ k, acc.rB k = some (1 - acc.R 0 k.castSucc / (ch.wt q0 + ch.wt q)) := by
    intro k
    unfold Hyp.Acc.rB
    rw [r2, if_neg (by positivity)]
    simp
  rcases r3 with ⟨r3, r4⟩ | ⟨r3, r4⟩
  · left
    simp only [x1, x2, y1, y2, hrB, r3, r4, zero_div, sub_zero, and_self]
  · right
    simp only [x1, x2, y1, y2, hrB, r3, r4, zero_div, sub_zero, and_self]

/-- The environment of the examples, with a centre that does not depend on the order. -/
noncomputable def exEc : Env ℚ ℚ ℚ := { exE with center := fun l => l.sum }

/-- No limits on the hypotheses. -/
noncomputable def exPrmAll : Params := ⟨0, 1 / 20, 63 ^ 30, 4 / 5, 150⟩

example : ∃ (F : Nat) (s s' s'' : St ℚ) (reps reps' : Nat → Rep ℚ),
    run exEc exPrmAll F [.correct exS exCh exScan ⟨0, none, 0⟩, .predict exM id] St.empty = some s ∧
    correct exEc exS exPrmAll exCh F exScan ⟨0, none, 0⟩ s = some (s', reps) ∧
    correct exEc exS exPrmAll exCh' F exScan.reverse ⟨0, none, 0⟩ s = some (s'', reps') ∧
    (reps' 0).rB = (reps 2).rB ∧ (reps' 1).rB = (reps 1).rB ∧ (reps' 2).rB = (reps 0).rB := by
  have hbox : BoxOk exEc := exE_box
  have hcall : ∀ (ch : Choices) (scan : List (Rep ℚ)), ChOk ch →
      CallOk exEc (.correct exS ch scan ⟨0, none, 0⟩) := fun ch scan h => ⟨exS_fov, h, fun z _ => exE_rbox _⟩
  have hdef : ∀ (ch : Choices) (scan : List (Rep ℚ)), ChOk ch → (∀ r c, Murty.PickOk (ch.pick r c)) → scan.length = 3 →
      ∃ F s, ∀ fuel, F ≤ fuel → run exEc exPrmAll fuel ([.correct exS exCh exScan ⟨0, none, 0⟩, .predict exM id] ++
        [.correct exS ch scan ⟨0, none, 0⟩]) St.empty = some s := by
    intro ch scan h1 h2 h3
    refine C26_defined hbox exPrmAll _ ?_ ?_ (by simp [Call.reports, exScan, h3])
    · intro c hc
      simp only [List.cons_append, List.nil_append, List.mem_cons, List.not_mem_nil, or_false] at hc
      rcases hc with rfl | rfl | rfl
      · exact hcall _ _ exCh_ok
      · exact fun l => List.Perm.refl _
      · exact hcall _ _ h1
    · intro c hc
      simp only [List.cons_append, List.nil_append, List.mem_cons, List.not_mem_nil, or_false] at hc
      rcases hc with rfl | rfl | rfl
      · exact ⟨exS_costs, exCh_pick⟩
      · trivial
      · exact ⟨exS_costs, h2⟩
  obtain ⟨F1, t1, g1⟩ := hdef exCh exScan exCh_ok exCh_pick rfl
  obtain ⟨F2, t2, g2⟩ := hdef exCh' exScan.reverse exCh'_ok exCh_pick rfl
  have g1 := g1 (max F1 F2) (le_max_left _ _)
  have g2 := g2 (max F1 F2) (le_max_right _ _)
  rw [run_append, Option.bind_eq_some_iff] at g1 g2
  obtain ⟨s, g1, k1⟩ := g1
  obtain ⟨s0, g2, k2⟩ := g2
  rw [g1] at g2
  obtain rfl := Option.some.inj g2
  simp only [run, step] at k1 k2
  cases h1 : correct exEc exS exPrmAll exCh (max F1 F2) exScan ⟨0, none, 0⟩ s with
  | none => simp [h1] at k1
  | some x =>
  cases h2 : correct exEc exS exPrmAll exCh' (max F1 F2) exScan.reverse ⟨0, none, 0⟩ s with
  | none => simp [h2] at k2
  | some y =>
  refine ⟨_, s, x.1, y.1, x.2, y.2, g1, h1, h2, ?_⟩
  have h := (C107_unlimited hbox (fun l l' h => h.sum_eq) exPrmAll _ _ _ (by
    intro c hc
    simp only [List.mem_cons, List.not_mem_nil, or_false] at hc
    rcases hc with rfl | rfl
    · exact hcall _ _ exCh_ok
    · exact fun l => List.Perm.refl _) s g1 exS exS_costs exCh exCh' rfl (fun q => (Hyp.ew_pos q).le) exCh_pick exCh_pick
    exScan exScan.reverse _ _ (hcall _ _ exCh_ok) (hcall _ _ exCh'_ok) (Equiv.swap 0 2) (by
      intro j
      match j with
      | 0 => rw [Equiv.swap_apply_left]; rfl
      | 1 => rw [Equiv.swap_apply_of_ne_of_ne (by omega) (by omega)]; rfl
      | 2 => rw [Equiv.swap_apply_right]; rfl
      | j + 3 => rw [Equiv.swap_apply_of_ne_of_ne (by omega) (by omega)]; rfl) _ _ _ _ h1 h2 (le_refl _) (by
      show (((3 : ℕ) : ℝ) + 60) ^ 30 ≤ 63 ^ 30
      norm_num)).1
  have h0 := (h 0 (by decide)).1
  have h1 := (h 1 (by decide)).1
  have h2 := (h 2 (by decide)).1
  rw [Equiv.swap_apply_left] at h0
  rw [Equiv.swap_apply_of_ne_of_ne (by omega) (by omega)] at h1
  rw [Equiv.swap_apply_right] at h2
  exact ⟨h2, h1, h0⟩

end Verif.Tracker
