import Mathlib.Algebra.Order.BigOperators.Ring.Finset
import Mathlib.Algebra.BigOperators.Fin
import Mathlib.Algebra.BigOperators.Field
import Mathlib.Algebra.Order.Floor.Semiring
import Mathlib.Tactic.Linarith
import Mathlib.Tactic.FieldSimp
import Mathlib.Tactic.NormNum
import Mathlib.Data.Rat.Floor
import Verif.Phd.Model
import Verif.GM.Props
import Verif.Tracker.Props

/-! # Property C56: the intensity grid -/

namespace Verif.Phd

open Verif.GM Verif.BBox

variable {X K : Type*} [Field K] [LinearOrder K] [IsStrictOrderedRing K] [FloorRing K]

/-- The number of columns that the mixture `c` fills in a buffer of `N` columns: every component of
weight `w` fills `w N`, rounded down. -/
def cols (N : Nat) (c : List (Cmp X K)) : Nat := (c.map fun g => ⌊g.w * N⌋.toNat).sum

/-- The point is in cell `(a, b)` when the box from `(x0, y0)` to `(x1, y1)` is cut into `sx` times
`sy` equal cells; a cell contains its lower and left but not its upper and right border. -/
def InCell (x0 y0 x1 y1 : K) (sx sy : Nat) (a b : Int) (p : Pt K) : Prop :=
  0 ≤ a ∧ a < sx ∧ 0 ≤ b ∧ b < sy ∧
  x0 + a * ((x1 - x0) / sx) ≤ p.1 ∧ p.1 < x0 + (a + 1) * ((x1 - x0) / sx) ∧
  y0 + b * ((y1 - y0) / sy) ≤ p.2 ∧ p.2 < y0 + (b + 1) * ((y1 - y0) / sy)

omit [IsStrictOrderedRing K] in
theorem blocks_cover (N : Nat) : ∀ (c : List (Cmp X K)) (col : Nat) (bl : List (Nat × Nat)),
    sampleBlocks N c col = some bl → ∀ j,
    (bl.any (fun b => decide (b.1 ≤ j) && decide (j < b.1 + b.2)) = true ↔
      col ≤ j ∧ j < col + cols N c) := by
  intro c
  induction c with
  | nil =>
    intro col bl h j
    simp only [sampleBlocks, Option.some.injEq] at h
    subst h
    simp [cols]
  | cons g l ih =>
    intro col bl h j
    simp only [sampleBlocks] at h
    split at h
    · cases h
    split at h
    · rw [Option.map_eq_some_iff] at h
      obtain ⟨bl', h1, rfl⟩ := h
      have := ih _ _ h1 j
      rw [List.any_cons, Bool.or_eq_true, this]
      have hc : cols N (g :: l) = ⌊g.w * N⌋.toNat + cols N l := by simp [cols]
      rw [hc]
      simp only [Bool.and_eq_true, decide_eq_true_eq]
      omega
    · cases h

omit [IsStrictOrderedRing K] in
theorem fill_spec {N : Nat} {c : List (Cmp X K)} {draw : Nat → Pt K} {buf buf' : Buf K}
    (h : fill N c draw buf = some buf') (j : Nat) :
    (j < cols N c → buf' j = some (draw j)) ∧ (cols N c ≤ j → buf' j = buf j) := by
  unfold fill at h
  cases hb : sampleBlocks N c 0 with
  | none => rw [hb] at h; cases h
  | some bl =>
    rw [hb] at h
    simp only [Option.some.injEq] at h
    subst h
    have := blocks_cover N c 0 bl hb j
    constructor
    · intro hj
      simp only
      rw [if_pos (this.2 (by omega))]
    · intro hj
      simp only
      rw [if_neg (fun hh => by have := this.1 hh; omega)]

theorem cell_iff {x c g : K} (hg : 0 < g) {i : Int} (h : cellOf x c g = some i) (a : Int) :
    a = i ↔ c + a * g ≤ x ∧ x < c + (a + 1) * g := by
  unfold cellOf at h
  rw [if_neg hg.ne'] at h
  split at h
  · simp only [Option.some.injEq] at h
    subst h
    rw [eq_comm, Int.floor_eq_iff, le_div_iff₀ hg, div_lt_iff₀ hg]
    constructor
    · rintro ⟨h1, h2⟩
      constructor <;> linarith
    · rintro ⟨h1, h2⟩
      constructor <;> linarith
  · cases h

section

variable {x0 y0 x1 y1 : K} {sx sy : Nat}

open Classical in
theorem tally1_spec (hx : x0 < x1) (hy : y0 < y1) (hsx : 0 < sx) (hsy : 0 < sy) {r : K}
    {smp : Option (Pt K)} {g g' : Grid K}
    (h : tally1 (spec ⟨x0, y0, x1, y1⟩ sx sy) r smp g = some g') :
    ∃ p, smp = some p ∧ ∀ a b, g' a b =
      g a b + if InCell x0 y0 x1 y1 sx sy a b p then r else 0 := by
  have gx : 0 < (x1 - x0) / (sx : K) := div_pos (by linarith) (by exact_mod_cast hsx)
  have gy : 0 < (y1 - y0) / (sy : K) := div_pos (by linarith) (by exact_mod_cast hsy)
  unfold tally1 spec at h
  cases smp with
  | none => cases h
  | some p =>
    refine ⟨p, rfl, fun a b => ?_⟩
    simp only at h
    cases hi : cellOf p.1 x0 ((x1 - x0) / (sx : K)) with
    | none => rw [hi] at h; cases h
    | some i =>
      cases hk : cellOf p.2 y0 ((y1 - y0) / (sy : K)) with
      | none => rw [hi, hk] at h; cases h
      | some k =>
        rw [hi, hk] at h
        simp only at h
        have ea := cell_iff gx hi a
        have eb := cell_iff gy hk b
        have key : InCell x0 y0 x1 y1 sx sy a b p ↔
            (a = i ∧ b = k) ∧ (i < sx ∧ k < sy ∧ 0 ≤ i ∧ 0 ≤ k) := by
          unfold InCell
          rw [ea, eb]
          constructor
          · rintro ⟨h1, h2, h3, h4, h5, h6, h7, h8⟩
            have e1 := ea.2 ⟨h5, h6⟩
            have e2 := eb.2 ⟨h7, h8⟩
            subst e1; subst e2
            exact ⟨⟨⟨h5, h6⟩, h7, h8⟩, h2, h4, h1, h3⟩
          · rintro ⟨⟨⟨h5, h6⟩, h7, h8⟩, h1, h2, h3, h4⟩
            have e1 := ea.2 ⟨h5, h6⟩
            have e2 := eb.2 ⟨h7, h8⟩
            subst e1; subst e2
            exact ⟨h3, h1, h4, h2, h5, h6, h7, h8⟩
        split at h
        · rename_i hc
          simp only [Option.some.injEq] at h
          subst h
          simp only [key, hc, and_true]
          split <;> simp
        · rename_i hc
          simp only [Option.some.injEq] at h
          subst h
          rw [if_neg (fun hh => hc (key.1 hh).2), add_zero]

omit [IsStrictOrderedRing K] in
theorem tally_append (sp : Spec K) (r : K) (buf : Buf K) : ∀ (l l' : List Nat) (g : Grid K),
    tally sp r buf (l ++ l') g = (tally sp r buf l g).bind (tally sp r buf l') := by
  intro l
  induction l with
  | nil => intro l' g; rfl
  | cons s l ih =>
    intro l' g
    simp only [List.cons_append, tally]
    cases tally1 sp r (buf s) g with
    | none => rfl
    | some g1 => exact ih l' g1

open Classical in
theorem tally_spec (hx : x0 < x1) (hy : y0 < y1) (hsx : 0 < sx) (hsy : 0 < sy) {r : K}
    {buf : Buf K} {g : Grid K} : ∀ (N : Nat) {g' : Grid K},
    tally (spec ⟨x0, y0, x1, y1⟩ sx sy) r buf (List.range N) g = some g' →
    ∃ smp : Nat → Pt K, (∀ j < N, buf j = some (smp j)) ∧ ∀ a b, g' a b =
      g a b + ∑ j ∈ Finset.range N, if InCell x0 y0 x1 y1 sx sy a b (smp j) then r else 0 := by
  intro N
  induction N with
  | zero =>
    intro g' h
    simp only [List.range_zero, tally, Option.some.injEq] at h
    subst h
    exact ⟨fun _ => (0, 0), by simp, by simp⟩
  | succ N ih =>
    intro g' h
    rw [List.range_succ, tally_append] at h
    obtain ⟨g1, h1, h2⟩ := Option.bind_eq_some_iff.1 h
    obtain ⟨smp, s1, s2⟩ := ih h1
    simp only [tally] at h2
    cases h3 : tally1 (spec ⟨x0, y0, x1, y1⟩ sx sy) r (buf N) g1 with
    | none => rw [h3] at h2; cases h2
    | some g2 =>
      rw [h3] at h2
      simp only [Option.some.injEq] at h2
      subst h2
      obtain ⟨p, p1, p2⟩ := tally1_spec hx hy hsx hsy h3
      refine ⟨fun j => if j = N then p else smp j, ?_, ?_⟩
      · intro j hj
        by_cases e : j = N
        · subst e; simp [p1]
        · simp only [e, if_false]
          exact s1 j (by omega)
      · intro a b
        rw [p2, s2, Finset.sum_range_succ, add_assoc]
        simp only [if_true]
        congr 2
        refine Finset.sum_congr rfl fun j hj => ?_
        have : j ≠ N := by have := Finset.mem_range.1 hj; omega
        simp only [if_neg this]

open Classical in
theorem loop_spec (hx : x0 < x1) (hy : y0 < y1) (hsx : 0 < sx) (hsy : 0 < sy) (N : Nat) :
    ∀ (ts : List (Src X K)) (buf : Buf K) (g g' : Grid K),
    loop N (spec ⟨x0, y0, x1, y1⟩ sx sy) ts buf g = some g' →
    ∃ smp : Nat → Nat → Pt K,
      (∀ k j t, ts[k]? = some t → j < N → (j < cols N t.c → smp k j = t.draw j) ∧
        (cols N t.c ≤ j → (k = 0 → buf j = some (smp 0 j)) ∧ (0 < k → smp k j = smp (k - 1) j))) ∧
      ∀ a b, g' a b = g a b + ∑ k : Fin ts.length, ∑ j ∈ Finset.range N,
        if InCell x0 y0 x1 y1 sx sy a b (smp k j) then ts[k].r else 0 := by
  intro ts
  induction ts with
  | nil =>
    intro buf g g' h
    simp only [loop, Option.some.injEq] at h
    subst h
    exact ⟨fun _ _ => (0, 0), by simp, by simp⟩
  | cons t l ih =>
    intro buf g g' h
    simp only [loop] at h
    cases hf : fill N t.c t.draw buf with
    | none => rw [hf] at h; cases h
    | some buf' =>
      rw [hf] at h
      simp only at h
      cases ht : tally (spec ⟨x0, y0, x1, y1⟩ sx sy) t.r buf' (List.range N) g with
      | none => rw [ht] at h; cases h
      | some g1 =>
        rw [ht] at h
        simp only at h
        obtain ⟨sm, m1, m2⟩ := tally_spec hx hy hsx hsy N ht
        obtain ⟨smp, s1, s2⟩ := ih buf' g1 g' h
        refine ⟨fun k => if k = 0 then sm else smp (k - 1), ?_, ?_⟩
        · intro k j u hu hj
          cases k with
          | zero =>
            simp only [List.getElem?_cons_zero, Option.some.injEq] at hu
            subst hu
            have fs := fill_spec hf j
            simp only [if_true]
            refine ⟨fun hc => ?_, fun hc => ⟨fun _ => ?_, fun h0 => absurd h0 (by omega)⟩⟩
            · have := fs.1 hc
              rw [m1 j hj] at this
              exact Option.some.inj this
            · rw [← fs.2 hc, m1 j hj]
          | succ k =>
            simp only [List.getElem?_cons_succ] at hu
            have := s1 k j u hu hj
            simp only [Nat.add_one_ne_zero, if_false, Nat.add_sub_cancel]
            refine ⟨this.1, fun hc => ⟨fun h0 => h0.elim, fun _ => ?_⟩⟩
            have t2 := this.2 hc
            by_cases hk : k = 0
            · subst hk
              have := t2.1 rfl
              rw [m1 j hj] at this
              simp only [if_true]
              exact (Option.some.inj this).symm
            · rw [if_neg hk]
              exact t2.2 (by omega)
        · intro a b
          rw [s2, m2, add_assoc]
          congr 1
          rw [show (∑ k : Fin (t :: l).length, ∑ j ∈ Finset.range N,
              if InCell x0 y0 x1 y1 sx sy a b ((if (k : Nat) = 0 then sm else smp (k - 1)) j)
              then (t :: l)[k].r else 0) = _ from Fin.sum_univ_succ (n := l.length) _]
          simp

open Classical in
/-- C56: what a cell holds.  Every target has a sample per column of the buffer: its own draw in
the columns that its mixture fills, and the previous target's sample in the others (there is none
for the first target).  A cell holds the sum over the targets of their probability of existence
times the share of their samples that lie in the cell. -/
theorem C56_grid (N : Nat) (ts : List (Src X K)) (g : Grid K) (hx : x0 < x1) (hy : y0 < y1)
    (hsx : 0 < sx) (hsy : 0 < sy) (h : phd N (spec ⟨x0, y0, x1, y1⟩ sx sy) ts = some g) :
    ∃ smp : Nat → Nat → Pt K,
      (∀ k j t, ts[k]? = some t → j < N → (j < cols N t.c → smp k j = t.draw j) ∧
        (cols N t.c ≤ j → 0 < k ∧ smp k j = smp (k - 1) j)) ∧
      ∀ a b, g a b = ∑ k : Fin ts.length, ts[k].r *
        ((Finset.range N).filter fun j => InCell x0 y0 x1 y1 sx sy a b (smp k j)).card / N := by
  unfold phd at h
  cases hl : loop N (spec ⟨x0, y0, x1, y1⟩ sx sy) ts (fun _ => none) (fun _ _ => (0 : K)) with
  | none => rw [hl] at h; cases h
  | some g1 =>
    rw [hl] at h
    simp only [Option.some.injEq] at h
    subst h
    obtain ⟨smp, s1, s2⟩ := loop_spec hx hy hsx hsy N ts _ _ _ hl
    refine ⟨smp, ?_, ?_⟩
    · intro k j t hk hj
      refine ⟨(s1 k j t hk hj).1, fun hc => ?_⟩
      have := (s1 k j t hk hj).2 hc
      by_cases h0 : k = 0
      · have := this.1 h0
        cases this
      · exact ⟨by omega, this.2 (by omega)⟩
    · intro a b
      simp only
      rw [s2, zero_add, Finset.sum_div]
      refine Finset.sum_congr rfl fun k _ => ?_
      rw [← Finset.sum_filter, Finset.sum_const, nsmul_eq_mul, mul_comm]

open Classical in
/-- A point is in at most one cell, and in one if it is in the box. -/
theorem cells_count (hx : x0 < x1) (hy : y0 < y1) (hsx : 0 < sx) (hsy : 0 < sy) (p : Pt K) :
    (∑ a ∈ Finset.range sx, ∑ b ∈ Finset.range sy,
      if InCell x0 y0 x1 y1 sx sy a b p then (1 : K) else 0) =
    if x0 ≤ p.1 ∧ p.1 < x1 ∧ y0 ≤ p.2 ∧ p.2 < y1 then 1 else 0 := by
  have gx : 0 < (x1 - x0) / (sx : K) := div_pos (by linarith) (by exact_mod_cast hsx)
  have gy : 0 < (y1 - y0) / (sy : K) := div_pos (by linarith) (by exact_mod_cast hsy)
  have fl : ∀ (x c g : K) (_ : 0 < g) (a : Int),
      (c + a * g ≤ x ∧ x < c + (a + 1) * g) ↔ a = ⌊(x - c) / g⌋ := by
    intro x c g hg a
    rw [eq_comm, Int.floor_eq_iff, le_div_iff₀ hg, div_lt_iff₀ hg]
    constructor
    · rintro ⟨h1, h2⟩
      constructor <;> linarith
    · rintro ⟨h1, h2⟩
      constructor <;> linarith
  have rg : ∀ (x c e : K) (n : Nat) (_ : 0 < n) (_ : c < e),
      (0 ≤ ⌊(x - c) / ((e - c) / n)⌋ ∧ ⌊(x - c) / ((e - c) / n)⌋ < n) ↔ (c ≤ x ∧ x < e) := by
    intro x c e n hn hce
    have hn' : (0 : K) < n := by exact_mod_cast hn
    have hg : 0 < (e - c) / (n : K) := div_pos (by linarith) hn'
    rw [Int.floor_nonneg, Int.floor_lt, le_div_iff₀ hg, div_lt_iff₀ hg, zero_mul]
    have : ((n : ℤ) : K) * ((e - c) / (n : K)) = e - c := by
      push_cast
      field_simp
    rw [this]
    constructor
    · rintro ⟨h1, h2⟩
      constructor <;> linarith
    · rintro ⟨h1, h2⟩
      constructor <;> linarith
  set i := ⌊(p.1 - x0) / ((x1 - x0) / (sx : K))⌋ with hi
  set k := ⌊(p.2 - y0) / ((y1 - y0) / (sy : K))⌋ with hk
  have key : ∀ a ∈ Finset.range sx, ∀ b ∈ Finset.range sy,
      (InCell x0 y0 x1 y1 sx sy a b p ↔ (a : Int) = i ∧ (b : Int) = k) := by
    intro a ha b hb
    rw [Finset.mem_range] at ha hb
    unfold InCell
    constructor
    · rintro ⟨_, _, _, _, h5, h6, h7, h8⟩
      exact ⟨(fl _ _ _ gx _).1 ⟨h5, h6⟩, (fl _ _ _ gy _).1 ⟨h7, h8⟩⟩
    · rintro ⟨h1, h2⟩
      have e1 := (fl p.1 x0 _ gx a).2 h1
      have e2 := (fl p.2 y0 _ gy b).2 h2
      exact ⟨by omega, by exact_mod_cast ha, by omega, by exact_mod_cast hb, e1.1, e1.2, e2.1, e2.2⟩
  rw [Finset.sum_congr rfl fun a ha => Finset.sum_congr rfl fun b hb =>
    if_congr (key a ha b hb) rfl rfl]
  have r1 := rg p.1 x0 x1 sx hsx hx
  have r2 := rg p.2 y0 y1 sy hsy hy
  rw [← hi] at r1
  rw [← hk] at r2
  split
  · rename_i hin
    obtain ⟨h1, h2, h3, h4⟩ := hin
    have q1 := r1.2 ⟨h1, h2⟩
    have q2 := r2.2 ⟨h3, h4⟩
    rw [Finset.sum_eq_single i.toNat, Finset.sum_eq_single k.toNat]
    · rw [if_pos]
      omega
    · intro b hb hne
      rw [if_neg]
      omega
    · intro hne
      exact absurd (Finset.mem_range.2 (by omega)) hne
    · intro a ha hne
      refine Finset.sum_eq_zero fun b hb => ?_
      rw [if_neg]
      omega
    · intro hne
      exact absurd (Finset.mem_range.2 (by omega)) hne
  · rename_i hout
    refine Finset.sum_eq_zero fun a ha => Finset.sum_eq_zero fun b hb => ?_
    rw [Finset.mem_range] at ha hb
    rw [if_neg]
    rintro ⟨e1, e2⟩
    have q1 := r1.1 ⟨by omega, by omega⟩
    have q2 := r2.1 ⟨by omega, by omega⟩
    exact hout ⟨q1.1, q1.2, q2.1, q2.2⟩

open Classical in
/-- C56: the cells are not negative, nothing is stored outside the grid, and the total is at most
the expected number of targets looked at; it equals that number if every target fills the whole
buffer with draws inside the region. -/
theorem C56_mass (N : Nat) (ts : List (Src X K)) (g : Grid K) (hx : x0 < x1) (hy : y0 < y1)
    (hsx : 0 < sx) (hsy : 0 < sy) (hN : 0 < N) (hr : ∀ t ∈ ts, 0 ≤ t.r)
    (h : phd N (spec ⟨x0, y0, x1, y1⟩ sx sy) ts = some g) :
    (∀ a b : Int, 0 ≤ g a b) ∧ (∀ a b : Int, ¬ (0 ≤ a ∧ a < sx ∧ 0 ≤ b ∧ b < sy) → g a b = 0) ∧
    (∑ a ∈ Finset.range sx, ∑ b ∈ Finset.range sy, g a b) ≤ (ts.map Src.r).sum ∧
    ((∀ t ∈ ts, N ≤ cols N t.c ∧ ∀ j < N, x0 ≤ (t.draw j).1 ∧ (t.draw j).1 < x1 ∧
        y0 ≤ (t.draw j).2 ∧ (t.draw j).2 < y1) →
      (∑ a ∈ Finset.range sx, ∑ b ∈ Finset.range sy, g a b) = (ts.map Src.r).sum) := by
  obtain ⟨smp, s1, s2⟩ := C56_grid N ts g hx hy hsx hsy h
  have hN' : (0 : K) < N := by exact_mod_cast hN
  have hr' : ∀ k : Fin ts.length, 0 ≤ ts[k].r := fun k => hr _ (List.getElem_mem _)
  have hsum : (ts.map Src.r).sum = ∑ k : Fin ts.length, ts[k].r := by
    rw [← List.sum_ofFn]
    congr 1
    apply List.ext_getElem <;> simp
  have tot : (∑ a ∈ Finset.range sx, ∑ b ∈ Finset.range sy, g a b) =
      ∑ k : Fin ts.length, ts[k].r * ((Finset.range N).filter fun j =>
        x0 ≤ (smp k j).1 ∧ (smp k j).1 < x1 ∧ y0 ≤ (smp k j).2 ∧ (smp k j).2 < y1).card / N := by
    simp only [s2]
    rw [Finset.sum_congr rfl fun a _ => Finset.sum_comm, Finset.sum_comm]
    refine Finset.sum_congr rfl fun k _ => ?_
    rw [Finset.sum_congr rfl fun a _ => (Finset.sum_div _ _ _).symm, ← Finset.sum_div]
    rw [Finset.sum_congr rfl fun a _ => (Finset.mul_sum _ _ _).symm, ← Finset.mul_sum]
    congr 2
    rw [Finset.natCast_card_filter]
    rw [Finset.sum_congr rfl fun j _ => (cells_count hx hy hsx hsy (smp k j)).symm]
    symm
    rw [Finset.sum_comm]
    refine Finset.sum_congr rfl fun a _ => ?_
    rw [Finset.sum_comm]
    refine Finset.sum_congr rfl fun b _ => ?_
    rw [Finset.natCast_card_filter]
  refine ⟨?_, ?_, ?_, ?_⟩
  · intro a b
    rw [s2]
    exact Finset.sum_nonneg fun k _ => div_nonneg (mul_nonneg (hr' k) (Nat.cast_nonneg _)) hN'.le
  · intro a b hab
    rw [s2]
    refine Finset.sum_eq_zero fun k _ => ?_
    rw [Finset.filter_false_of_mem]
    · simp
    · rintro j _ ⟨h1, h2, h3, h4, _⟩
      exact hab ⟨h1, h2, h3, h4⟩
  · rw [tot, hsum]
    refine Finset.sum_le_sum fun k _ => ?_
    rw [div_le_iff₀ hN']
    refine mul_le_mul_of_nonneg_left ?_ (hr' k)
    have := Finset.card_filter_le (Finset.range N) fun j =>
        x0 ≤ (smp k j).1 ∧ (smp k j).1 < x1 ∧ y0 ≤ (smp k j).2 ∧ (smp k j).2 < y1
    rw [Finset.card_range] at this
    exact_mod_cast this
  · intro hin
    rw [tot, hsum]
    refine Finset.sum_congr rfl fun k _ => ?_
    rw [Finset.filter_true_of_mem, Finset.card_range, mul_div_assoc, div_self hN'.ne', mul_one]
    intro j hj
    rw [Finset.mem_range] at hj
    have hk : ts[(k : Nat)]? = some ts[k] := List.getElem?_eq_getElem k.2
    obtain ⟨t1, t2⟩ := hin _ (List.getElem_mem k.2)
    have e := (s1 k j _ hk hj).1 (by exact lt_of_lt_of_le hj t1)
    rw [e]
    exact t2 j hj

/-- C56: if the first target does not fill the whole buffer, uninitialised samples are read. -/
theorem C56_uninit (N : Nat) (t : Src X K) (l : List (Src X K)) (hx : x0 < x1) (hy : y0 < y1)
    (hsx : 0 < sx) (hsy : 0 < sy) (h : cols N t.c < N) :
    phd N (spec ⟨x0, y0, x1, y1⟩ sx sy) (t :: l) = none := by
  cases hp : phd N (spec ⟨x0, y0, x1, y1⟩ sx sy) (t :: l) with
  | none => rfl
  | some g =>
    obtain ⟨smp, s1, -⟩ := C56_grid N _ g hx hy hsx hsy hp
    exact absurd ((s1 0 (cols N t.c) t rfl h).2 le_rfl).1 (by omega)

theorem tally_defined {sp : Spec K} {r : K} {buf : Buf K}
    (hb : ∀ p : Pt K, ∀ j, buf j = some p → (cellOf p.1 sp.cx sp.gx).isSome ∧
      (cellOf p.2 sp.cy sp.gy).isSome) : ∀ (l : List Nat) (g : Grid K),
    (∀ j ∈ l, (buf j).isSome) → ∃ g', tally sp r buf l g = some g' := by
  intro l
  induction l with
  | nil => exact fun g _ => ⟨g, rfl⟩
  | cons j l ih =>
    intro g hl
    obtain ⟨p, hp⟩ := Option.isSome_iff_exists.1 (hl j (by simp))
    obtain ⟨c1, c2⟩ := hb p j hp
    obtain ⟨i, hi⟩ := Option.isSome_iff_exists.1 c1
    obtain ⟨k, hk⟩ := Option.isSome_iff_exists.1 c2
    have : ∃ g1, tally1 sp r (buf j) g = some g1 := by
      unfold tally1
      rw [hp]
      simp only [hi, hk]
      split <;> exact ⟨_, rfl⟩
    obtain ⟨g1, h1⟩ := this
    obtain ⟨g2, h2⟩ := ih g1 fun j hj => hl j (by simp [hj])
    exact ⟨g2, by simp only [tally, h1, h2]⟩

theorem loop_defined (N : Nat) {sp : Spec K} : ∀ (ts : List (Src X K)) (buf : Buf K) (g : Grid K),
    (∀ t ∈ ts, (∀ m ∈ t.c, 0 ≤ m.w) ∧ (t.c.map Cmp.w).sum ≤ 1 ∧
      ∀ j, (cellOf (t.draw j).1 sp.cx sp.gx).isSome ∧ (cellOf (t.draw j).2 sp.cy sp.gy).isSome) →
    (∀ p : Pt K, ∀ j, buf j = some p → (cellOf p.1 sp.cx sp.gx).isSome ∧
      (cellOf p.2 sp.cy sp.gy).isSome) →
    ((∀ j < N, (buf j).isSome) ∨ (∀ t ∈ ts.head?, N ≤ cols N t.c)) →
    ∃ g', loop N sp ts buf g = some g' := by
  intro ts
  induction ts with
  | nil => exact fun _ g _ _ _ => ⟨g, rfl⟩
  | cons t l ih =>
    intro buf g ht hb hf
    obtain ⟨w0, w1, dr⟩ := ht t (by simp)
    obtain ⟨bl, b1, -⟩ := sampleBlocks_spec N t.c 0 w0 (by
      have := mul_le_mul_of_nonneg_right w1 (Nat.cast_nonneg (α := K) N)
      push_cast
      linarith)
    have hfill : ∃ buf', fill N t.c t.draw buf = some buf' := by
      unfold fill
      rw [b1]
      exact ⟨_, rfl⟩
    obtain ⟨buf', hfill⟩ := hfill
    have fs := fun j => fill_spec hfill j
    have hb' : ∀ p : Pt K, ∀ j, buf' j = some p → (cellOf p.1 sp.cx sp.gx).isSome ∧
        (cellOf p.2 sp.cy sp.gy).isSome := by
      intro p j hp
      by_cases hc : j < cols N t.c
      · rw [(fs j).1 hc] at hp
        rw [← Option.some.inj hp]
        exact dr j
      · rw [(fs j).2 (by omega)] at hp
        exact hb p j hp
    have hs : ∀ j < N, (buf' j).isSome := by
      intro j hj
      by_cases hc : j < cols N t.c
      · rw [(fs j).1 hc]; rfl
      · rw [(fs j).2 (by omega)]
        rcases hf with hf | hf
        · exact hf j hj
        · have := hf t (by simp)
          omega
    obtain ⟨g1, h1⟩ := tally_defined (r := t.r) hb' (List.range N) g fun j hj =>
      hs j (List.mem_range.1 hj)
    obtain ⟨g2, h2⟩ := ih buf' g1 (fun u hu => ht u (by simp [hu])) hb' (Or.inl hs)
    exact ⟨g2, by simp only [loop, hfill, h1, h2]⟩

/-- C56: `pos_phd` is defined if the weights of every mixture are not negative and sum to at most 1,
the first target fills the whole buffer, and the cell numbers of all draws fit in 32 bits. -/
theorem C56_defined (N : Nat) (ts : List (Src X K)) (hx : x0 < x1) (hy : y0 < y1)
    (hsx : 0 < sx) (hsy : 0 < sy)
    (hw : ∀ t ∈ ts, (∀ m ∈ t.c, 0 ≤ m.w) ∧ (t.c.map Cmp.w).sum ≤ 1)
    (h1 : ∀ t ∈ ts.head?, N ≤ cols N t.c)
    (hd : ∀ t ∈ ts, ∀ j, |((t.draw j).1 - x0) / ((x1 - x0) / sx)| < 2 ^ 31 - 1 ∧
      |((t.draw j).2 - y0) / ((y1 - y0) / sy)| < 2 ^ 31 - 1) :
    ∃ g, phd N (spec ⟨x0, y0, x1, y1⟩ sx sy) ts = some g := by
  have gx : 0 < (x1 - x0) / (sx : K) := div_pos (by linarith) (by exact_mod_cast hsx)
  have gy : 0 < (y1 - y0) / (sy : K) := div_pos (by linarith) (by exact_mod_cast hsy)
  have fit : ∀ (x c g : K), 0 < g → |(x - c) / g| < 2 ^ 31 - 1 → (cellOf x c g).isSome := by
    intro x c g hg hh
    unfold cellOf
    rw [if_neg hg.ne']
    rw [abs_lt] at hh
    rw [if_pos]
    · rfl
    · constructor
      · rw [Int.le_floor]
        push_cast
        linarith [hh.1]
      · rw [Int.floor_lt]
        push_cast
        linarith [hh.2]
  obtain ⟨g, h⟩ := loop_defined (sp := spec ⟨x0, y0, x1, y1⟩ sx sy) N ts (fun _ => none)
    (fun _ _ => 0) (fun t ht => ⟨(hw t ht).1, (hw t ht).2, fun j =>
      ⟨fit _ _ _ gx (hd t ht j).1, fit _ _ _ gy (hd t ht j).2⟩⟩) (fun p j hp => by cases hp)
    (Or.inr h1)
  exact ⟨fun a b => g a b / N, by simp only [phd, h]⟩

end

/-! ### Cases -/

/-- A target with one component, all draws at `(1/2, 1/2)`. -/
def exOne : Src Nat ℚ := ⟨1 / 2, [⟨0, 1⟩], fun _ => (1 / 2, 1 / 2)⟩
/-- A target with three components of equal weight, all draws at `(3/2, 3/2)`. -/
def exTwo : Src Nat ℚ := ⟨3 / 4, exThird, fun _ => (3 / 2, 3 / 2)⟩

theorem exTwo_cols : cols 1000 exTwo.c = 999 := by decide +kernel
theorem exOne_cols : cols 1000 exOne.c = 1000 := by decide +kernel

theorem ex_defined : ∃ g, phd 1000 (spec ⟨0, 0, 2, 2⟩ 2 2) [exOne, exTwo] = some g := by
  refine C56_defined 1000 [exOne, exTwo] (by norm_num) (by norm_num) (by norm_num) (by norm_num)
    ?_ ?_ ?_
  · decide +kernel
  · decide +kernel
  · intro t ht j
    simp only [List.mem_cons, List.not_mem_nil, or_false] at ht
    rcases ht with rfl | rfl <;> norm_num [exOne, exTwo, abs_lt]

example : ∃ g, phd 1000 (spec ⟨0, 0, 2, 2⟩ 2 2) [exOne, exTwo] = some g ∧
    ∑ a ∈ Finset.range 2, ∑ b ∈ Finset.range 2, g a b ≤ 1 / 2 + 3 / 4 := by
  obtain ⟨g, hg⟩ := ex_defined
  refine ⟨g, hg, ?_⟩
  have := (C56_mass 1000 [exOne, exTwo] g (by norm_num) (by norm_num) (by norm_num) (by norm_num)
    (by norm_num) (by decide +kernel) hg).2.2.1
  simpa [exOne, exTwo] using this

example : phd 1000 (spec ⟨0, 0, 2, 2⟩ 2 2) [exTwo, exOne] = none :=
  C56_uninit 1000 exTwo [exOne] (by norm_num) (by norm_num) (by norm_num) (by norm_num)
    (by rw [exTwo_cols]; norm_num)

/-- C56: mass is put where a target is not.  Although all draws for the first target are in cell
(0, 0) and all draws for the second in cell (1, 1), cell (0, 0) gets a part of the second target,
through a column that the second target does not fill. -/
theorem C56_stale : ∃ g, phd 1000 (spec ⟨0, 0, 2, 2⟩ 2 2) [exOne, exTwo] = some g ∧
    (∀ j, InCell 0 0 2 2 2 2 0 0 (exOne.draw j)) ∧ (∀ j, ¬ InCell 0 0 2 2 2 2 0 0 (exTwo.draw j)) ∧
    g 0 0 = exOne.r + exTwo.r / 1000 := by
  classical
  obtain ⟨g, hg⟩ := ex_defined
  have i1 : InCell (0 : ℚ) 0 2 2 2 2 0 0 (1 / 2, 1 / 2) := by norm_num [InCell]
  have i2 : ¬ InCell (0 : ℚ) 0 2 2 2 2 0 0 (3 / 2, 3 / 2) := by norm_num [InCell]
  refine ⟨g, hg, fun _ => i1, fun _ => i2, ?_⟩
  obtain ⟨smp, s1, s2⟩ := C56_grid 1000 _ g (by norm_num) (by norm_num) (by norm_num) (by norm_num)
    hg
  have a0 : ∀ j < 1000, smp 0 j = (1 / 2, 1 / 2) := fun j hj =>
    (s1 0 j exOne rfl hj).1 (by rw [exOne_cols]; exact hj)
  have a1 : ∀ j < 999, smp 1 j = (3 / 2, 3 / 2) := fun j hj =>
    (s1 1 j exTwo rfl (by omega)).1 (by rw [exTwo_cols]; exact hj)
  have a2 : smp 1 999 = (1 / 2, 1 / 2) := by
    rw [((s1 1 999 exTwo rfl (by omega)).2 (by rw [exTwo_cols])).2]
    exact a0 999 (by omega)
  have f0 : (Finset.range 1000).filter (fun j => InCell (0 : ℚ) 0 2 2 2 2 0 0 (smp 0 j)) =
      Finset.range 1000 := by
    refine Finset.filter_true_of_mem fun j hj => ?_
    rw [a0 j (Finset.mem_range.1 hj)]
    exact i1
  have f1 : (Finset.range 1000).filter (fun j => InCell (0 : ℚ) 0 2 2 2 2 0 0 (smp 1 j)) = {999} := by
    ext j
    rw [Finset.mem_filter, Finset.mem_range, Finset.mem_singleton]
    constructor
    · rintro ⟨h1, h2⟩
      by_contra hne
      rw [a1 j (by omega)] at h2
      exact i2 h2
    · rintro rfl
      exact ⟨by norm_num, by rw [a2]; exact i1⟩
  rw [s2, show (∑ k : Fin [exOne, exTwo].length, _) = _ from Fin.sum_univ_two _]
  simp only [Fin.val_zero, Fin.val_one, f0, f1, Finset.card_range, Finset.card_singleton]
  show exOne.r * _ / _ + exTwo.r * _ / _ = _
  norm_num [exOne, exTwo]

/-! ### The tracker -/

section tracker

open Verif.Tracker

variable {P R O : Type}

theorem sumR_add (h : Nat → Option (Tgt P)) : ∀ (l : List Nat) (x : ℝ),
    sumR h l x = (sumR h l 0).map (x + ·) := by
  intro l
  induction l with
  | nil => intro x; simp [sumR]
  | cons a l ih =>
    intro x
    simp only [sumR]
    cases h a with
    | none => rfl
    | some t =>
      simp only
      rw [ih (x + t.r), ih (0 + t.r)]
      cases sumR h l 0 <;> simp [add_assoc]

theorem sumR_congr {h h' : Nat → Option (Tgt P)}
    (hh : ∀ a, (h a).map Tgt.r = (h' a).map Tgt.r) : ∀ (l : List Nat) (x : ℝ),
    sumR h l x = sumR h' l x := by
  intro l
  induction l with
  | nil => intro x; rfl
  | cons a l ih =>
    intro x
    simp only [sumR]
    have := hh a
    cases e : h a <;> cases e' : h' a <;> rw [e, e'] at this <;> simp_all

theorem gather_spec (E : Env P R O) (comps : P → List (Cmp X ℝ)) (draws : Nat → P → Nat → Pt ℝ)
    (o : O) : ∀ (l : List Nat) (s : St P) (ts : List (Src X ℝ)) (s' : St P),
    gather E comps draws o l s = some (ts, s') →
    relocate E o l s = some s' ∧ sumR s.heap l 0 = some (ts.map Src.r).sum ∧
    ∀ u ∈ ts, ∃ a ∈ l, ∃ t, s.heap a = some t ∧ u.r = t.r := by
  intro l
  induction l with
  | nil =>
    intro s ts s' h
    simp only [gather, Option.some.injEq, Prod.mk.injEq] at h
    obtain ⟨rfl, rfl⟩ := h
    simp [relocate, sumR]
  | cons a l ih =>
    intro s ts s' h
    simp only [gather] at h
    cases ha : s.heap a with
    | none => rw [ha] at h; cases h
    | some t =>
      rw [ha] at h
      simp only at h
      cases hg : gather E comps draws o l
          { s with heap := setHeap s.heap a (some (back E (forth E o t))) } with
      | none => rw [hg] at h; cases h
      | some q =>
        obtain ⟨ts1, s1⟩ := q
        rw [hg] at h
        simp only [Option.some.injEq, Prod.mk.injEq] at h
        obtain ⟨rfl, rfl⟩ := h
        obtain ⟨g1, g2, g3⟩ := ih _ _ _ hg
        have same : ∀ b, ((setHeap s.heap a (some (back E (forth E o t)))) b).map Tgt.r =
            (s.heap b).map Tgt.r := by
          intro b
          unfold setHeap
          by_cases e : b = a
          · subst e
            simp [ha, back, forth]
          · simp [e]
        refine ⟨?_, ?_, ?_⟩
        · simp only [relocate, ha]
          exact g1
        · simp only [sumR, ha]
          rw [sumR_add, ← sumR_congr same, g2]
          simp
        · intro u hu
          rcases List.mem_cons.1 hu with rfl | hu
          · exact ⟨a, by simp, t, ha, rfl⟩
          · obtain ⟨b, b1, t', b2, b3⟩ := g3 u hu
            have := same b
            simp only at b2
            rw [b2] at this
            cases hb : s.heap b with
            | none => rw [hb] at this; cases this
            | some t'' =>
              rw [hb] at this
              simp only [Option.map_some, Option.some.injEq] at this
              exact ⟨b, by simp [b1], t'', hb, b3.trans this⟩

/-- C56: the total of the grid is at most what `enof_targets` returns for the region, provided no
target has a negative probability of existence; the state left behind is the one of `phdQuery`. -/
theorem C56_tracker (E : Env P R O) (comps : P → List (Cmp X ℝ)) (draws : Nat → P → Nat → Pt ℝ) (o : O)
    (fov : RTree.Rect) {x0 y0 x1 y1 : ℝ} {sx sy : Nat} (s s' : St P) (g : Grid ℝ) (hx : x0 < x1)
    (hy : y0 < y1) (hsx : 0 < sx) (hsy : 0 < sy)
    (hr : ∀ a t, s.heap a = some t → 0 ≤ t.r)
    (h : posPhd E comps draws o fov (spec ⟨x0, y0, x1, y1⟩ sx sy) s = some (g, s')) :
    phdQuery E o fov s = some s' ∧
    ∃ e, enofTargetsIn s fov = some e ∧ (∀ a b, 0 ≤ g a b) ∧
      ∑ a ∈ Finset.range sx, ∑ b ∈ Finset.range sy, g a b ≤ e := by
  unfold posPhd at h
  cases hq : query s fov with
  | none => rw [hq] at h; cases h
  | some l =>
    rw [hq] at h
    simp only at h
    cases hg : gather E comps draws o l s with
    | none => rw [hg] at h; cases h
    | some q =>
      obtain ⟨ts, s1⟩ := q
      rw [hg] at h
      simp only at h
      cases hp : phd 1000 (spec ⟨x0, y0, x1, y1⟩ sx sy) ts with
      | none => rw [hp] at h; cases h
      | some g1 =>
        rw [hp] at h
        simp only [Option.some.injEq, Prod.mk.injEq] at h
        obtain ⟨rfl, rfl⟩ := h
        obtain ⟨g1', g2, g3⟩ := gather_spec E comps draws o l s ts s1 hg
        have m := C56_mass 1000 ts g1 hx hy hsx hsy (by norm_num) (fun t ht => by
          obtain ⟨a, _, t', h1, h2⟩ := g3 t ht
          rw [h2]
          exact hr a t' h1) hp
        refine ⟨by simp only [phdQuery, hq]; exact g1', _, ?_, m.1, m.2.2.1⟩
        simp only [enofTargetsIn, hq]
        exact g2

theorem gather_list (E : Env P R O) (comps : P → List (Cmp X ℝ)) (draws : Nat → P → Nat → Pt ℝ)
    (o : O) : ∀ (l : List Nat) (s : St P) (ts : List (Src X ℝ)) (s' : St P), l.Nodup →
    gather E comps draws o l s = some (ts, s') →
    ∃ tg, readAll s.heap l = some tg ∧ ts = tg.map fun x =>
      ⟨x.2.r, comps (E.toLocal o x.2.pdf), draws x.1 (E.toLocal o x.2.pdf)⟩ := by
  intro l
  induction l with
  | nil =>
    intro s ts s' _ h
    simp only [gather, Option.some.injEq, Prod.mk.injEq] at h
    obtain ⟨rfl, rfl⟩ := h
    exact ⟨[], rfl, rfl⟩
  | cons a l ih =>
    intro s ts s' hn h
    rw [List.nodup_cons] at hn
    simp only [gather] at h
    cases ha : s.heap a with
    | none => rw [ha] at h; cases h
    | some t =>
      rw [ha] at h
      simp only at h
      cases hg : gather E comps draws o l
          { s with heap := setHeap s.heap a (some (back E (forth E o t))) } with
      | none => rw [hg] at h; cases h
      | some q =>
        obtain ⟨ts1, s1⟩ := q
        rw [hg] at h
        simp only [Option.some.injEq, Prod.mk.injEq] at h
        obtain ⟨rfl, rfl⟩ := h
        obtain ⟨tg, g1, rfl⟩ := ih _ _ _ hn.2 hg
        have same : ∀ (l : List Nat), a ∉ l →
            readAll (setHeap s.heap a (some (back E (forth E o t)))) l = readAll s.heap l := by
          intro l
          induction l with
          | nil => intro _; rfl
          | cons b l ih =>
            intro hb
            simp only [List.mem_cons, not_or] at hb
            have : setHeap s.heap a (some (back E (forth E o t))) b = s.heap b := by
              simp [setHeap, Ne.symm hb.1]
            simp only [readAll, this, ih hb.2]
        simp only at g1
        rw [same l hn.1] at g1
        exact ⟨(a, t) :: tg, by simp only [readAll, ha, g1], rfl⟩

/-- C56: the grid is made from the targets that `get_targets` returns for the region, from their
probabilities of existence and from samples of their densities in the local frame. -/
theorem C56_samples (E : Env P R O) (hbox : BoxOk E) (prm : Params) (fuel : Nat)
    (calls : List (Call P R)) (hc : ∀ c ∈ calls, CallOk E c) (comps : P → List (Cmp X ℝ))
    (draws : Nat → P → Nat → Pt ℝ) (o : O) (fov : RTree.Rect) (hf : fov.Valid) (sp : Spec ℝ)
    (s s' : St P) (g : Grid ℝ) (e : run E prm fuel calls St.empty = some s)
    (h : posPhd E comps draws o fov sp s = some (g, s')) :
    ∃ tg, getIn s fov = some tg ∧ phd 1000 sp (tg.map fun x =>
      ⟨x.2.r, comps (E.toLocal o x.2.pdf), draws x.1 (E.toLocal o x.2.pdf)⟩) = some g := by
  have hs := run_inv hbox (Inv.empty E) hc e
  obtain ⟨l, hq, hn, -⟩ := query_ok hbox hs.ok fov hf
  unfold posPhd at h
  rw [hq] at h
  simp only at h
  cases hg : gather E comps draws o l s with
  | none => rw [hg] at h; cases h
  | some q =>
    obtain ⟨ts, s1⟩ := q
    rw [hg] at h
    simp only at h
    cases hp : phd 1000 sp ts with
    | none => rw [hp] at h; cases h
    | some g1 =>
      rw [hp] at h
      simp only [Option.some.injEq, Prod.mk.injEq] at h
      obtain ⟨rfl, rfl⟩ := h
      obtain ⟨tg, t1, rfl⟩ := gather_list E comps draws o l s ts s1 hn hg
      exact ⟨tg, by simp only [getIn, hq]; exact t1, hp⟩

/-- A tracker with one target, at address 1. -/
noncomputable def exSt : St ℚ where
  heap a := if a = 1 then some ⟨0, 1 / 2, 0, 0, 'i'⟩ else none
  targets := [1]
  tree := (RTree.insert ⟨-1, 0, 1, 1⟩ 1 RTree.empty).getD RTree.empty
  idc := 1

theorem exSt_query : query exSt ⟨-5, -5, 5, 5⟩ = some [1] := by decide +kernel

example : ∃ g s' e, posPhd exE (fun _ => [⟨(), 1⟩]) (fun _ _ _ => (1 / 2, 3 / 2)) 0 ⟨-5, -5, 5, 5⟩
      (spec ⟨0, 0, 2, 2⟩ 2 2) exSt = some (g, s') ∧
    enofTargetsIn exSt ⟨-5, -5, 5, 5⟩ = some e ∧
    ∑ a ∈ Finset.range 2, ∑ b ∈ Finset.range 2, g a b ≤ e := by
  have hg : ∃ ts s', gather exE (fun _ => [(⟨(), 1⟩ : Cmp Unit ℝ)]) (fun _ _ _ => (1 / 2, 3 / 2)) 0 [1]
      exSt = some (ts, s') ∧ ts = [⟨1 / 2, [⟨(), 1⟩], fun _ => (1 / 2, 3 / 2)⟩] := by
    simp [gather, exSt]
  obtain ⟨ts, s', hg, hts⟩ := hg
  obtain ⟨g, hp⟩ := C56_defined (x0 := (0 : ℝ)) (y0 := 0) (x1 := 2) (y1 := 2) (sx := 2) (sy := 2)
    1000 ts (by norm_num) (by norm_num) (by norm_num) (by norm_num)
    (by rw [hts]; simp) (by rw [hts]; simp [cols])
    (by rw [hts]; norm_num [abs_lt])
  have h : posPhd exE (fun _ => [⟨(), 1⟩]) (fun _ _ _ => (1 / 2, 3 / 2)) 0 ⟨-5, -5, 5, 5⟩
      (spec ⟨0, 0, 2, 2⟩ 2 2) exSt = some (g, s') := by
    simp only [posPhd, exSt_query, hg, hp]
  obtain ⟨-, e, e1, -, e2⟩ := C56_tracker exE _ _ 0 _ exSt s' g (by norm_num) (by norm_num)
    (by norm_num) (by norm_num) (by
      intro a t ht
      simp only [exSt] at ht
      split at ht
      · simp only [Option.some.injEq] at ht
        subst ht
        norm_num
      · cases ht) h
  exact ⟨g, s', e, h, e1, e2⟩

theorem gather_total (E : Env P R O) (comps : P → List (Cmp X ℝ)) (draws : Nat → P → Nat → Pt ℝ)
    (o : O) : ∀ (l : List Nat) (s : St P), (∀ a ∈ l, ∃ t, s.heap a = some t) →
    ∃ q, gather E comps draws o l s = some q := by
  intro l
  induction l with
  | nil => exact fun s _ => ⟨_, rfl⟩
  | cons a l ih =>
    intro s hs
    obtain ⟨t, ht⟩ := hs a (by simp)
    obtain ⟨q, hq⟩ := ih { s with heap := setHeap s.heap a (some (back E (forth E o t))) } (by
      intro b hb
      simp only [setHeap]
      split
      · exact ⟨_, rfl⟩
      · exact hs b (by simp [hb]))
    exact ⟨(⟨t.r, comps (forth E o t).pdf, draws a (forth E o t).pdf⟩ :: q.1, q.2), by
      simp only [gather, ht, hq]⟩

/-- A history with births, a prediction and a correction. -/
example : ∃ F s g s' tg, run exE exPrm F exCalls St.empty = some s ∧
    posPhd exE (fun _ => [(⟨(), 1⟩ : Cmp Unit ℝ)]) (fun _ _ _ => (1 / 2, 3 / 2)) 0 ⟨-5, -5, 5, 5⟩
      (spec ⟨0, 0, 2, 2⟩ 2 2) s = some (g, s') ∧ getIn s ⟨-5, -5, 5, 5⟩ = some tg ∧
    phd 1000 (spec ⟨0, 0, 2, 2⟩ 2 2) (tg.map fun x =>
      ⟨x.2.r, [(⟨(), 1⟩ : Cmp Unit ℝ)], fun _ => (1 / 2, 3 / 2)⟩) = some g := by
  obtain ⟨F, s, hF⟩ := exRun
  have e := hF F (le_refl _)
  have hs := run_inv exE_box (Inv.empty exE) exCalls_ok e
  have hf : (⟨-5, -5, 5, 5⟩ : RTree.Rect).Valid := by unfold RTree.Rect.Valid; decide +kernel
  obtain ⟨l, hq, hn, hm⟩ := query_ok exE_box hs.ok ⟨-5, -5, 5, 5⟩ hf
  obtain ⟨⟨ts, s'⟩, hg⟩ := gather_total exE (fun _ => [(⟨(), 1⟩ : Cmp Unit ℝ)])
    (fun _ _ _ => (1 / 2, 3 / 2)) 0 l s fun a ha => by
      obtain ⟨_, _, t, ht, _⟩ := (hm a).1 ha
      exact ⟨t, ht⟩
  obtain ⟨tg, t1, t2⟩ := gather_list exE _ _ 0 l s ts s' hn hg
  have hmem : ∀ t ∈ ts, t.c = [⟨(), 1⟩] ∧ t.draw = fun _ => (1 / 2, 3 / 2) := by
    intro t ht
    rw [t2, List.mem_map] at ht
    obtain ⟨x, -, rfl⟩ := ht
    exact ⟨rfl, rfl⟩
  obtain ⟨g, hp⟩ := C56_defined (x0 := (0 : ℝ)) (y0 := 0) (x1 := 2) (y1 := 2) (sx := 2) (sy := 2)
    1000 ts (by norm_num) (by norm_num) (by norm_num) (by norm_num)
    (fun t ht => by rw [(hmem t ht).1]; simp)
    (fun t ht => by rw [(hmem t (List.mem_of_mem_head? ht)).1]; simp [cols])
    (fun t ht j => by rw [(hmem t ht).2]; norm_num [abs_lt])
  have h : posPhd exE (fun _ => [(⟨(), 1⟩ : Cmp Unit ℝ)]) (fun _ _ _ => (1 / 2, 3 / 2)) 0
      ⟨-5, -5, 5, 5⟩ (spec ⟨0, 0, 2, 2⟩ 2 2) s = some (g, s') := by
    simp only [posPhd, hq, hg, hp]
  obtain ⟨tg', a1, a2⟩ := C56_samples exE exE_box exPrm F exCalls exCalls_ok _ _ 0 _ hf _ s s' g e h
  exact ⟨F, s, g, s', tg', e, h, a1, a2⟩

end tracker

end Verif.Phd
