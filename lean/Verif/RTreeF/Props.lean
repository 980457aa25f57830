import Verif.RTreeF.Area
import Verif.RTree.Props

/-!
# Properties of the R-tree with areas in `double` (C78)

The histories below are run with `runWith (areas64 sq)`: the code of `include/RTree.h` with every
area rounded to binary64, for any correctly rounded square root.
-/

namespace Verif.RTreeF

open Verif.Lap Verif.LapF XR
open Verif.RTree

variable {D : Type} [DecidableEq D]

/-- Every insertion of the history uses a rectangle with `min ≤ max` and coordinates of size at
most `2²³ = 8388608` (the tracker stores degrees). -/
def OpsBounded (os : List (Op D)) : Prop :=
  ∀ r d, Op.insert r d ∈ os → r.minx ≤ r.maxx ∧ r.miny ≤ r.maxy ∧
    |r.minx| ≤ 2 ^ 23 ∧ |r.miny| ≤ 2 ^ 23 ∧ |r.maxx| ≤ 2 ^ 23 ∧ |r.maxy| ≤ 2 ^ 23

theorem OpsBounded.good {os : List (Op D)} (h : OpsBounded os) :
    ∀ r d, Op.insert r d ∈ os → Good Bd64 r := by
  intro r d hm
  obtain ⟨a, b, c, e, f, g⟩ := h r d hm
  refine ⟨⟨a, b⟩, ?_⟩
  rintro q rfl
  exact ⟨(abs_le.1 c).1, (abs_le.1 e).1, (abs_le.1 f).2, (abs_le.1 g).2⟩

theorem run64_spec {sq : ℚ → ℚ} (hs : CorrectSqrt sq) (os : List (Op D)) (hv : OpsBounded os) :
    ∃ t, runWith (areas64 sq) os (empty : RTree.Tree D) = some t ∧ WF t ∧
      AbsRun os 0 (items t : Multiset (Rect × D)) := by
  obtain ⟨t, e, w, _, a⟩ := runWith_spec (areas64_ok hs) os empty hv.good wf_empty
    (by intro e he; cases he)
  exact ⟨t, e, w, a⟩

/-- **C78** With areas rounded to `double`, every history of calls with rectangles in range runs
without a failed assertion and without reading an uninitialised variable, and ends in a
well-formed R-tree. -/
theorem C78_well_formed {sq : ℚ → ℚ} (hs : CorrectSqrt sq) (os : List (Op D))
    (hv : OpsBounded os) :
    ∃ t, runWith (areas64 sq) os (empty : RTree.Tree D) = some t ∧ WF t := by
  obtain ⟨t, e, w, _⟩ := run64_spec hs os hv
  exact ⟨t, e, w⟩

open scoped Classical in
/-- **C78** The tree built in `double` arithmetic gives exact answers: `Search` reports exactly the
stored entries that meet the box, `Count` is their number, and `GetFirst`/`GetNext` visit each
once.  Rounding influences only which node an entry is stored in. -/
theorem C78_exact_answers {sq : ℚ → ℚ} (hs : CorrectSqrt sq) (os : List (Op D))
    (hv : OpsBounded os) :
    ∃ t m, runWith (areas64 sq) os (empty : RTree.Tree D) = some t ∧ AbsRun os 0 m ∧
      (∀ q : Rect, q.Valid → ∃ res : List D,
        search (fun acc d => (acc ++ [d], true)) q [] t = some (res, res.length) ∧
        (res : Multiset D) = (m.filter fun e => q.Touch e.1).map (·.2)) ∧
      count t = Multiset.card m ∧
      (Multiset.card m < 2 ^ 65 → ∃ st es, getFirst 33 t [] = some st ∧
        visit (Multiset.card m) 33 st = some es ∧ (es : Multiset (Rect × D)) = m) := by
  obtain ⟨t, e, w, a⟩ := run64_spec hs os hv
  exact ⟨t, _, e, a, fun q hq => w.search_exact hq, by rw [count_spec t w]; rfl,
    fun hc => w.iterate hc⟩

/-- **C78** Under the usage discipline of `TargetTree_` the rounded and the exact tree hold the same
entries, and answer every query with the same entries. -/
theorem C78_same_contents {sq : ℚ → ℚ} (hs : CorrectSqrt sq) (os : List (Op D))
    (hv : OpsBounded os) (hd : Disciplined os (0 : Multiset (Rect × D))) :
    ∃ t t', runWith (areas64 sq) os (empty : RTree.Tree D) = some t ∧ run os (empty : RTree.Tree D) = some t' ∧
      (items t).Perm (items t') ∧
      ∀ q : Rect, q.Valid → ∃ res res' : List D,
        search (fun acc d => (acc ++ [d], true)) q [] t = some (res, res.length) ∧
        search (fun acc d => (acc ++ [d], true)) q [] t' = some (res', res'.length) ∧
        res.Perm res' := by
  classical
  obtain ⟨t, e, w, a⟩ := run64_spec hs os hv
  obtain ⟨t', e', w', a'⟩ := run_spec os (empty : RTree.Tree D) (fun r d h => (hv.good r d h).1) wf_empty
  have h1 := absRun_det os 0 _ Multiset.nodup_zero (by simp) hd a
  have h2 := absRun_det os 0 _ Multiset.nodup_zero (by simp) hd a'
  have hit := h1.trans h2.symm
  refine ⟨t, t', e, e', Multiset.coe_eq_coe.1 hit, ?_⟩
  intro q hq
  obtain ⟨res, s1, s2⟩ := w.search_exact hq
  obtain ⟨res', s1', s2'⟩ := w'.search_exact hq
  refine ⟨res, res', s1, s1', Multiset.coe_eq_coe.1 ?_⟩
  rw [s2, s2', hit]

/-! The hypotheses are satisfiable: the sample history of `Verif/RTree/Props.lean` is in range, and
a correctly rounded square root exists. -/

theorem sampleOps_bounded : OpsBounded sampleOps := by
  intro r d h
  simp only [sampleOps, List.mem_append, List.mem_map, List.mem_range] at h
  rcases h with ⟨i, hi, h⟩ | ⟨i, _, h⟩
  · injection h with h1 h2
    subst h1
    have a : (i : ℚ) ≤ 20 := by exact_mod_cast hi.le
    have b : ((7 * i % 11 : Nat) : ℚ) ≤ 11 := by exact_mod_cast (Nat.mod_lt _ (by norm_num)).le
    have c : (0:ℚ) ≤ ((7 * i % 11 : Nat) : ℚ) := Nat.cast_nonneg _
    have c' : (0:ℚ) ≤ (i : ℚ) := Nat.cast_nonneg _
    simp only [sampleRect, abs_le]
    generalize ((7 * i % 11 : Nat) : ℚ) = z at *
    generalize (i : ℚ) = y at *
    norm_num
    refine ⟨⟨?_, ?_⟩, ⟨?_, ?_⟩, ⟨?_, ?_⟩, ?_, ?_⟩ <;> linarith
  · exact absurd h (by simp)

example : ∃ sq, CorrectSqrt sq := correctSqrt_exists

example {sq : ℚ → ℚ} (hs : CorrectSqrt sq) := C78_well_formed hs sampleOps sampleOps_bounded

example {sq : ℚ → ℚ} (hs : CorrectSqrt sq) := C78_exact_answers hs sampleOps sampleOps_bounded

example {sq : ℚ → ℚ} (hs : CorrectSqrt sq) := C78_same_contents hs
  [Op.insert (sampleRect 0) 0, .insert (sampleRect 1) 1, .remove (sampleRect 1) 1]
  (by
    intro r d h
    refine sampleOps_bounded r d ?_
    simp only [List.mem_cons, Op.insert.injEq, List.not_mem_nil, or_false, reduceCtorEq] at h
    rcases h with ⟨rfl, rfl⟩ | ⟨rfl, rfl⟩ <;> simp [sampleOps])
  (by simp [Disciplined, detStep])

/-! ## Large rectangles -/

theorem combine_self (r : Rect) : combine r r = r := by
  cases r; simp [combine]

omit [DecidableEq D] in
theorem seedsInner_same {A : Areas} {r : Rect} {w : A.α}
    (h : A.lt w (A.sub (A.sub (A.vol r) (A.vol r)) (A.vol r)) = false) (ia : Nat)
    (bs : List (Branch D)) (hb : ∀ b ∈ bs, b.1 = r) (ib : Nat) :
    seedsInner A r ia ib bs (w, none) = (w, none) := by
  induction bs generalizing ib with
  | nil => rfl
  | cons b bs ih =>
    rw [seedsInner]
    have e : b.1 = r := hb b (by simp)
    simp only [e, combine_self, h]
    exact ih (fun b hb' => hb b (by simp [hb'])) (ib + 1)

omit [DecidableEq D] in
theorem seedsOuter_same {A : Areas} {r : Rect} {w : A.α}
    (h : A.lt w (A.sub (A.sub (A.vol r) (A.vol r)) (A.vol r)) = false)
    (bs : List (Branch D)) (hb : ∀ b ∈ bs, b.1 = r) (ia : Nat) :
    seedsOuter A ia bs (w, none) = (w, none) := by
  induction bs generalizing ia with
  | nil => rfl
  | cons b bs ih =>
    rw [seedsOuter]
    have e : b.1 = r := hb b (by simp)
    rw [e, seedsInner_same h ia bs (fun b hb' => hb b (by simp [hb'])) (ia + 1)]
    exact ih (fun b hb' => hb b (by simp [hb'])) (ia + 1)

/-- The ninth copy of a rectangle makes `PickSeeds` use unassigned seeds if subtracting one from
minus its area is lost in rounding. -/
theorem nine_copies_undefined {A : Areas} {r : Rect}
    (h : A.lt (A.sub (A.neg (A.vol r)) A.one)
      (A.sub (A.sub (A.vol r) (A.vol r)) (A.vol r)) = false) :
    runWith A ((List.range 9).map fun i => Op.insert r i) (empty : RTree.Tree Nat) = none := by
  have h8 : runWith A ((List.range 8).map fun i => Op.insert r i) (empty : RTree.Tree Nat) =
      some (.node 0 ((List.range 8).map fun i => (r, .data i))) := rfl
  have happ : ∀ (os os' : List (Op Nat)) (s : RTree.Tree Nat),
      runWith A (os ++ os') s = (runWith A os s).bind (runWith A os') := by
    intro os
    induction os with
    | nil => intro os' s; rfl
    | cons o os ih =>
      intro os' s
      simp only [runWith, List.cons_append, Option.bind_assoc]
      congr 1
      funext s'
      exact ih os' s'
  rw [List.range_succ, List.map_append, happ, h8]
  have hcov : nodeCover ((List.range 8).map (fun i => (r, RTree.Tree.data i)) ++ [(r, RTree.Tree.data 8)]) = r := by
    simp [List.range_succ, nodeCover, combine_self]
  have hseed : pickSeeds A ((List.range 8).map (fun i => (r, RTree.Tree.data i)) ++ [(r, RTree.Tree.data 8)])
      (initParVars A 9) = none := by
    unfold pickSeeds
    rw [hcov, seedsOuter_same h _ (by
      intro b hb
      rcases List.mem_append.1 hb with hb | hb
      · obtain ⟨i, _, rfl⟩ := List.mem_map.1 hb; rfl
      · rw [List.mem_singleton.1 hb])]
  have hsplit : splitNode A ((List.range 8).map (fun i => (r, RTree.Tree.data i))) (r, RTree.Tree.data 8) =
      none := by
    unfold splitNode choosePartition
    have hl : ((List.range 8).map (fun i => (r, RTree.Tree.data i)) ++ [(r, RTree.Tree.data 8)]).length = 9 := by
      simp
    rw [if_neg (by simp)]
    simp only [hl, hseed, Option.bind_eq_bind, Option.bind_none]
  show ((insertRect A r (.data 8) (.node 0 ((List.range 8).map fun i => (r, RTree.Tree.data i))) 0).bind
    fun t => some t) = none
  unfold insertRect
  have : insertRec A 0 r (.data 8) (.node 0 ((List.range 8).map fun i => (r, RTree.Tree.data i))) 0 = none := by
    rw [insertRec, if_pos (by simp)]
    unfold addBranch
    rw [if_neg (by simp), hsplit]
    rfl
  rw [if_neg (by simp [RTree.Tree.level])]
  show ((insertRec A 0 r (.data 8) (.node 0 ((List.range 8).map fun i => (r, RTree.Tree.data i))) 0).bind
    _).bind _ = none
  rw [this]
  rfl

/-- A horizontal segment of length `2²⁸`. -/
def wide : Rect := ⟨-2 ^ 27, 0, 2 ^ 27, 0⟩

theorem wide_vol {sq : ℚ → ℚ} (hs : CorrectSqrt sq) :
    vol64 sq wide = fin (3294199 * 2 ^ 34) := by
  have h0 : half64 wide.minx wide.maxx = fin (2 ^ 27) := by decide +kernel
  have h1 : half64 wide.miny wide.maxy = fin 0 := by decide +kernel
  have e : sq (2 ^ 54) = 2 ^ 27 := by
    have e' : (2 ^ 27 * 2 ^ 27 : ℚ) = 2 ^ 54 := by norm_num
    have := sqrt_square hs (d := 2 ^ 27) (isDouble_pow (by norm_num))
      (by rw [e']; exact isDouble_pow (by norm_num)) (by norm_num)
    rwa [e'] at this
  refine vol64_eq h0 h1 (q0 := 2 ^ 54) (q1 := 0) (t := 2 ^ 54) (s := 2 ^ 54) (p := 2 ^ 54)
    (by decide +kernel) (by decide +kernel) (by decide +kernel) (by decide +kernel) (by norm_num)
    ?_ (by decide +kernel)
  rw [e]
  decide +kernel

/-- **C78** Without the bound on the coordinates the claim is false: inserting nine copies of a
rectangle of length `2²⁸` is undefined behaviour, because `-coverSplitArea - 1` rounds to
`-coverSplitArea` and no pair of rectangles beats it. -/
theorem C78_unbounded_refuted {sq : ℚ → ℚ} (hs : CorrectSqrt sq) :
    wide.Valid ∧
    runWith (areas64 sq) ((List.range 9).map fun i => Op.insert wide i) (empty : RTree.Tree Nat) = none ∧
    ∃ t, run ((List.range 9).map fun i => Op.insert wide i) (empty : RTree.Tree Nat) = some t ∧ WF t := by
  have hv : wide.Valid := by constructor <;> norm_num [wide]
  refine ⟨hv, ?_, ?_⟩
  · refine nine_copies_undefined ?_
    show XR.lt (b64.sub (neg64 (vol64 sq wide)) (fin 1))
      (b64.sub (b64.sub (vol64 sq wide) (vol64 sq wide)) (vol64 sq wide)) = false
    rw [wide_vol hs]
    decide +kernel
  · refine C03_history_well_formed _ ?_
    intro r d h
    obtain ⟨i, _, h⟩ := List.mem_map.1 h
    injection h with h1 h2
    subst h1
    exact hv

example : ∃ sq, CorrectSqrt sq ∧
    runWith (areas64 sq) ((List.range 9).map fun i => Op.insert wide i) (empty : RTree.Tree Nat) = none := by
  obtain ⟨sq, hs⟩ := correctSqrt_exists
  exact ⟨sq, hs, (C78_unbounded_refuted hs).2.1⟩

end Verif.RTreeF
