import Verif.Tracker.Seen

/-!
# C106: what a report that a target explains starts

The share of a report that its target does not explain, and which reports start targets.
-/

namespace Verif.Tracker

open Verif.Lap (XR)
open Verif.Lap.XR (fin)
open Verif.Murty (Node PickOk)

variable {P R O : Type}

/-- **C106, the report** Let a target and a report touch only each other, whatever else is in the scan and
in the tracker, and let `d`, `x`, `y` be the weights of "detected", "missed" and "not there".  With what the
loop keeps of them, `rB` of the report is the share of the hypotheses in which the target is not detected.
If this share is too small for `r_lim`, the report starts no target. -/
theorem C106_share {E : Env P R O} (hbox : BoxOk E) (prm : Params) (fuel : Nat)
    (calls : List (Call P R)) (hc : ∀ d ∈ calls, CallOk E d) (s : St P)
    (e : run E prm fuel calls St.empty = some s) (S : Sensor P R) (ch : Choices)
    (scan : List (Rep R)) (dflt : Rep R) (hok : CallOk E (.correct S ch scan dflt))
    (hp : ∀ r c, PickOk (ch.pick r c)) (hwt : Antitone ch.wt) (hwt0 : ∀ q, 0 ≤ ch.wt q) (s' : St P)
    (reps : Nat → Rep R) (e' : correct E S prm ch fuel scan dflt s = some (s', reps)) (a : Nat)
    (t : Tgt P) (ht : s.heap a = some t) {j : Nat} {z : Rep R}
    (hj : scan[j]? = some z) (hit : (E.rbox z.val).Touch (E.box t.pdf))
    (hone : ∀ i z', scan[i]? = some z' → (E.rbox z'.val).Touch (E.box t.pdf) → i = j)
    (hmine : ∀ b t', s.heap b = some t' → (E.rbox z.val).Touch (E.box t'.pdf) → b = a)
    (hw : prm.wlim ≤ 1) (hn : 2 < prm.nhypMax) {o : O} {p : P} {zl : R}
    (ho : o = E.center [E.rpos z.val, E.pos t.pdf]) (hpp : p = E.toLocal o t.pdf)
    (hzl : zl = E.rLocal o z.val) {d x y : ℝ} {qf : ℚ}
    (hd : MissWeight ch.wt (S.detCost a t.r p zl) d)
    (hx : MissWeight ch.wt (S.missCost a t.r p) x) (hy : S.flsCost t.r = fin qf ∧ y = ch.wt qf)
    (hpos : 0 < d + x + y) :
    ∃ d' x' y' : ℝ, Kept prm.wlim d x y d' x' y' ∧ 0 < d' + x' + y' ∧
      (reps j).rB = some ((x' + y') / (d' + x' + y')) ∧
      ((x' + y') / (d' + x' + y') * S.lambdaB /
          ((List.range scan.length).map fun i => ((reps i).rB).getD 0).sum < prm.rlim →
        ∃ old new, s'.targets = old ++ new ∧ old.Sublist s.targets ∧ Stay s s' old ∧ ∀ b ∈ new,
          ∃ i w, i < scan.length ∧ i ≠ j ∧ s'.heap b = some w ∧ w.pdf = S.init (reps i).val) := by
  have hs := run_inv hbox (Inv.empty E) hc e
  have hg : Gated E S scan s a := ⟨t, ht, Or.inr ⟨z, List.mem_of_getElem? hj, hit⟩⟩
  obtain ⟨cls, s1, rcid, h1, hall⟩ := C24_fresh_rB hbox prm fuel calls hc s e S ch scan dflt hok s' reps e'
  have hjl := (List.getElem?_eq_some_iff.1 hj).1
  obtain ⟨i, k, c, v, hic, hk, huniq, hv, hrB⟩ := hall j hjl
  obtain ⟨cls', s1', rcid', h1', c', v', k', u', hcm', hk', hv', hu', _⟩ :=
    C28_correct_fate hbox prm fuel calls hc s e S ch scan dflt hok s' reps e' a t ht hg
  rw [h1, Option.some.injEq, Prod.mk.injEq, Prod.mk.injEq] at h1'
  obtain ⟨rfl, rfl, rfl⟩ := h1'
  have hborn := C25_births hbox prm fuel calls hc s e S ch scan dflt hok s' reps e'
  obtain ⟨hf, hch, hz⟩ := hok
  obtain ⟨hct, hcr⟩ := pair_cluster hbox hf hz hs.ok h1 hcm' (List.mem_of_getElem? hk')
    ⟨t, z, ht, hj, hit⟩
    (by
      rintro i ⟨t', z', g1, g2, g3⟩
      rw [ht] at g1
      cases g1
      exact hone i z' g2 g3)
    (by
      rintro b ⟨t', z', g1, g2, g3⟩
      rw [hj] at g2
      cases g2
      exact hmine b t' g1 g3)
  obtain rfl : c' = c := by
    obtain ⟨i', hi'⟩ := List.mem_iff_getElem?.1 hcm'
    have := huniq i' c' hi' (by rw [hcr]; simp)
    subst this
    rw [hic] at hi'
    exact (Option.some.inj hi').symm
  have hk0 : k = 0 := by
    have := (List.getElem?_eq_some_iff.1 hk).1
    rw [hcr] at this
    simpa using this
  subst hk0
  obtain ⟨cls', s1', rcid', p1, p2, p3, p4, p5, p6, p7, p8, p9, p10⟩ := prepare_ok hbox hf hz hs.ok
  rw [h1, Option.some.injEq, Prod.mk.injEq, Prod.mk.injEq] at p1
  obtain ⟨rfl, rfl, rfl⟩ := p1
  obtain ⟨t1, g1, g2, g3, g4, g5⟩ := p9 a t ht
  obtain ⟨hy1, rfl⟩ := hy
  have hzv : (initReps scan rcid dflt j).val = z.val := by
    simp [initReps, List.getD_eq_getElem?_getD, hj]
  have hv2 : compute E S prm ch.pick fuel ch.wt [(a, t1)] [z.val] = some v := by
    unfold compOf at hv
    rw [hct, hcr] at hv
    simpa only [readAll, g1, List.map_cons, List.map_nil, hzv] using hv
  obtain ⟨d', x', y', hK, hW, hb, _⟩ := pair_compute hp hwt hwt0 (t := t1) (z := z.val) (o := o) (p := p)
    (zl := zl) (by rw [g4]; exact ho) (by rw [g4]; exact hpp) hzl (d := d) (x := x) (qf := qf)
    (by rw [g3]; exact hd) (by rw [g3]; exact hx) (by rw [g3]; exact hy1) hpos hw hn hv2
  have hsh : (reps j).rB = some ((x' + y') / (d' + x' + y')) := by
    rw [hb] at hrB
    simp only [List.getElem?_cons_zero, Option.some.injEq] at hrB
    rw [← hrB]
    congr 1
    rw [eq_div_iff hW.ne', sub_mul, div_mul_cancel₀ _ hW.ne']
    ring
  refine ⟨d', x', y', hK, hW, hsh, fun hsmall => ?_⟩
  obtain ⟨old, new, idx, xs, b1, b2, b3, b4, b5, b6, b7, _, _, _, b8⟩ := hborn
  refine ⟨old, new, b1, b2, b8, fun b hb => ?_⟩
  obtain ⟨m, hm⟩ := List.mem_iff_getElem?.1 hb
  have hlt := (List.getElem?_eq_some_iff.1 hm).1
  have hi1 : idx[m]? = some (idx[m]'(b3 ▸ hlt)) := List.getElem?_eq_getElem _
  have hx1 : xs[m]? = some (xs[m]'(by rw [b4, ← b3]; exact hlt)) := List.getElem?_eq_getElem _
  obtain ⟨hl, bb, w, w1, w2, w3, _, _, w4⟩ := b7 m b _ _ hm hi1 hx1
  refine ⟨_, w, b6 _ (List.mem_of_getElem? hi1), ?_, w3, w4⟩
  intro hij
  rw [hij, hsh] at w1
  injection w1 with w1
  rw [w2, ← w1] at hl
  exact absurd hsmall (not_lt.2 hl)

/-- **C106, a free report** A report that touches no target is not explained at all: its `rB` is 1. -/
theorem C106_free {E : Env P R O} (hbox : BoxOk E) (prm : Params) (fuel : Nat)
    (calls : List (Call P R)) (hc : ∀ d ∈ calls, CallOk E d) (s : St P)
    (e : run E prm fuel calls St.empty = some s) (S : Sensor P R) (ch : Choices)
    (scan : List (Rep R)) (dflt : Rep R) (hok : CallOk E (.correct S ch scan dflt)) (s' : St P)
    (reps : Nat → Rep R) (e' : correct E S prm ch fuel scan dflt s = some (s', reps)) {j : Nat} {z : Rep R}
    (hj : scan[j]? = some z)
    (hfree : ∀ b t, s.heap b = some t → ¬ (E.rbox z.val).Touch (E.box t.pdf)) :
    (reps j).rB = some 1 := by
  have hs := run_inv hbox (Inv.empty E) hc e
  obtain ⟨cls, s1, rcid, h1, hall⟩ := C24_fresh_rB hbox prm fuel calls hc s e S ch scan dflt hok s' reps e'
  obtain ⟨i, k, c, v, hic, hk, _, hv, hrB⟩ := hall j (List.getElem?_eq_some_iff.1 hj).1
  obtain ⟨hf, hch, hz⟩ := hok
  have hno : ∀ b, ¬ Hits E scan s b j := by
    rintro b ⟨t, z', g1, g2, g3⟩
    rw [hj] at g2
    cases g2
    exact hfree b t g1 g3
  have hct : c.targets = [] := by
    rw [List.eq_nil_iff_forall_not_mem]
    intro a ha
    obtain ⟨l1, _⟩ := prepare_closed hbox hf hz hs.ok h1 c (List.mem_of_getElem? hic) a ha
    obtain ⟨i', g1, g2⟩ := (l1 j).1 (List.mem_of_getElem? hk)
    rcases g2.cases_tail with h | ⟨m, _, b, _, h⟩
    · rw [← h] at g1
      exact hno a g1
    · exact hno b h
  simp only [compOf, hct, readAll, compute] at hv
  injection hv with hv
  subst hv
  obtain ⟨_, _, h⟩ := List.mem_map.1 (List.mem_of_getElem? hrB)
  exact h.symm

end Verif.Tracker
