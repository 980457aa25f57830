import Verif.Lap.Props

/-!
# The AVX2 variants of `find_umins`, `include/rlapjv.h:59-252`

With AVX2 the two smallest reduced costs of a row with at least 64 (`float`) or 100000 (`double`)
columns are searched in 8 or 4 interleaved lanes.  The two variants are the same text with another
number of lanes, the argument `W` here.  Comparisons are `_CMP_LE_OQ` and `_CMP_LT_OQ`, that is `<=`
and `<`, false on NaN; a mask is all ones or all zeros, so that `blendv` is a choice.
-/

namespace Verif.Lap

open XR

variable {n m : Nat}

/-- One lane, or the state of the scalar loops: `umin`, `usubmin`, `j1`, `j2`, `rlapjv.h:78-80`,
`104-106`; `none` is the index `-1`. -/
structure Lane (m : Nat) where
  umin : XR
  usub : XR
  j1 : Option (Fin m)
  j2 : Option (Fin m)
deriving DecidableEq

/-- Initial values, `rlapjv.h:78-80` and `104-106` (`172-174`, `198-200`). -/
def Lane.init : Lane m := ⟨pinf, pinf, none, none⟩

/-- Loop body for one lane and column `j`, `rlapjv.h:83-97` (`177-191`). -/
def laneStep (h : Fin m → XR) (s : Lane m) (j : Fin m) : Lane m :=
  let cmp := (h j).le s.umin
  let usub := if cmp then s.umin else s.usub
  let j2 := if cmp then s.j1 else s.j2
  let umin := if cmp then h j else s.umin
  let j1 := if cmp then some j else s.j1
  let cmp2 := !cmp && (h j).lt usub
  ⟨umin, if cmp2 then h j else usub, j1, if cmp2 then some j else j2⟩

/-- The columns of lane `l`, in order, `rlapjv.h:77,81-84,97` (`171,175-178,191`): `W * b + l` in
iteration `b` of `for (j = 0; j < dim - (W - 1); j += W)`. -/
def laneCols (W : Nat) (l : Fin W) : List (Fin m) :=
  List.ofFn fun b : Fin (m / W) => ⟨W * b + l, by
    have h1 : W * (b + 1) ≤ W * (m / W) := Nat.mul_le_mul_left _ b.isLt
    have h2 := Nat.mul_div_le m W
    have h3 := l.isLt
    rw [Nat.mul_add] at h1
    omega⟩

/-- The vector loop, seen from lane `l`, `rlapjv.h:81-98` (`175-192`). -/
def laneRun (h : Fin m → XR) (W : Nat) (l : Fin W) : Lane m :=
  (laneCols W l).foldl (laneStep h) Lane.init

/-- First loop over the lanes, `rlapjv.h:107-126` (`201-220`). -/
def mergeMin (s l : Lane m) : Lane m :=
  if l.umin.lt s.usub then
    if s.umin.le l.umin then ⟨s.umin, l.umin, s.j1, l.j1⟩
    else ⟨l.umin, s.umin, l.j1, s.j1⟩
  else s

/-- Second loop over the lanes, `rlapjv.h:127-135` (`221-229`). -/
def mergeSub (s l : Lane m) : Lane m :=
  if l.usub.lt s.usub then { s with usub := l.usub, j2 := l.j2 } else s

/-- Loop over the remaining columns, `rlapjv.h:136-153` (`230-247`). -/
def tailStep (h : Fin m → XR) (s : Lane m) (j : Fin m) : Lane m :=
  if (h j).lt s.usub then
    if s.umin.le (h j) then ⟨s.umin, h j, s.j1, some j⟩
    else ⟨h j, s.umin, some j, s.j1⟩
  else s

/-- The remaining columns, `rlapjv.h:136` (`230`): from `dim & ~(W - 1)`, which is `W * (dim / W)`
for `W` a power of two. -/
def tailCols (m W : Nat) : List (Fin m) :=
  (List.finRange m).filter fun j => W * (m / W) ≤ j

/-- `find_umins` for AVX2 from `rlapjv.h:75` (`169`) on. -/
def findUminsVec (W : Nat) (crow v : Fin m → XR) : Lane m :=
  let h := fun j => (crow j).sub (v j)
  let lanes := (List.finRange W).map (laneRun h W)
  (tailCols m W).foldl (tailStep h) (lanes.foldl mergeSub (lanes.foldl mergeMin Lane.init))

/-- `find_umins` for AVX2 and `double`, `rlapjv.h:158-250`, as called by `rlap`: a negative `j1` is
used as an index (`317`). -/
def findUminsAvx (minDim W : Nat) : FindUmins m := fun crow v =>
  if m < minDim then findUmins crow v
  else
    let r := findUminsVec W crow v
    r.j1.map fun j1 => (r.umin, r.usub, j1, r.j2)

/-- `lap` in a build with AVX2, `rlapjv.h:519-559`, `63`, `158-250`. -/
def lapAvx (C : Cost n m) (fuel : Nat) : Option (Bool × Sol n m) :=
  lapWith (findUminsAvx 100000 4) C fuel

/-! ## The lanes -/

/-- A lane after the columns `P`. -/
structure LaneOk (h : Fin m → XR) (P : List (Fin m)) (s : Lane m) : Prop where
  min : (s.umin = pinf ∧ s.j1 = none ∧ P = []) ∨ ∃ k ∈ P, s.j1 = some k ∧ s.umin = h k
  le : ∀ j ∈ P, Le s.umin (h j)
  sub : s.usub = pinf ∨ ∃ k ∈ P, s.j2 = some k ∧ s.j1 ≠ some k ∧ s.usub = h k
  le2 : ∀ j ∈ P, s.j1 ≠ some j → Le s.usub (h j)

theorem LaneOk.minC {h : Fin m → XR} (hh : ∀ j, IsC (h j)) {P s} (hs : LaneOk h P s) :
    IsC s.umin := by
  rcases hs.min with ⟨e, _⟩ | ⟨k, _, _, e⟩
  · exact Or.inl e
  · rw [e]; exact hh k

theorem LaneOk.subC {h : Fin m → XR} (hh : ∀ j, IsC (h j)) {P s} (hs : LaneOk h P s) :
    IsC s.usub := by
  rcases hs.sub with e | ⟨k, _, _, _, e⟩
  · exact Or.inl e
  · rw [e]; exact hh k

theorem le_of_not_lt {x y : XR} (hx : IsC x) (hy : IsC y) (h : ¬ x.lt y = true) : Le y x := by
  by_contra hc
  exact h ((lt_iff_not_le hx hy).2 hc)

theorem le_of_lt {x y : XR} (hx : IsC x) (hy : IsC y) (h : x.lt y = true) : Le x y :=
  (Le.total hx hy).resolve_right ((lt_iff_not_le hx hy).1 h)

theorem le_of_not_le {x y : XR} (hx : IsC x) (hy : IsC y) (h : ¬ x.le y = true) : Le y x :=
  (Le.total hx hy).resolve_left (fun c => h ((le_iff hx hy).2 c))

theorem isFin_of_lt {x y : XR} (hx : IsC x) (h : x.lt y = true) : IsFin x := by
  rcases hx with rfl | hx
  · simp at h
  · exact hx

theorem laneStep_ok {h : Fin m → XR} (hh : ∀ j, IsC (h j)) {P s} (hs : LaneOk h P s) (j : Fin m)
    (hj : j ∉ P) : LaneOk h (P ++ [j]) (laneStep h s j) := by
  have hne : ∀ k ∈ P, k ≠ j := fun k hk e => hj (e ▸ hk)
  have hmC := hs.minC hh
  have hsC := hs.subC hh
  have hj1 : s.j1 ≠ some j := by
    rcases hs.min with ⟨_, e, _⟩ | ⟨k, hk, e, _⟩ <;> rw [e]
    · simp
    · simpa using hne k hk
  by_cases h1 : (h j).le s.umin = true
  · have h1' := (le_iff (hh j) hmC).1 h1
    have e : laneStep h s j = ⟨h j, s.umin, some j, s.j1⟩ := by simp [laneStep, h1]
    rw [e]
    refine ⟨Or.inr ⟨j, by simp, rfl, rfl⟩, ?_, ?_, ?_⟩
    · intro k hk
      rcases List.mem_append.1 hk with hk | hk
      · exact h1'.trans (hs.le k hk)
      · rw [List.mem_singleton.1 hk]; exact Le.refl (hh j)
    · rcases hs.min with ⟨e, _⟩ | ⟨k, hk, e1, e2⟩
      · exact Or.inl e
      · refine Or.inr ⟨k, by simp [hk], e1, ?_, e2⟩
        simpa using (hne k hk).symm
    · intro k hk hkj
      rcases List.mem_append.1 hk with hk | hk
      · exact hs.le k hk
      · exact absurd (by rw [List.mem_singleton.1 hk]) hkj
  · have h1' := le_of_not_le (hh j) hmC h1
    by_cases h2 : (h j).lt s.usub = true
    · have e : laneStep h s j = ⟨s.umin, h j, s.j1, some j⟩ := by simp [laneStep, h1, h2]
      have h2' := le_of_lt (hh j) hsC h2
      have hP : P ≠ [] := by
        rcases hs.min with ⟨e, _, _⟩ | ⟨k, hk, _⟩
        · exact absurd ((le_iff (hh j) hmC).2 (e ▸ Le.pinf _)) h1
        · exact List.ne_nil_of_mem hk
      rw [e]
      refine ⟨?_, ?_, Or.inr ⟨j, by simp, rfl, hj1, rfl⟩, ?_⟩
      · rcases hs.min with ⟨_, _, e⟩ | ⟨k, hk, e1, e2⟩
        · exact absurd e hP
        · exact Or.inr ⟨k, by simp [hk], e1, e2⟩
      · intro k hk
        rcases List.mem_append.1 hk with hk | hk
        · exact hs.le k hk
        · rw [List.mem_singleton.1 hk]; exact h1'
      · intro k hk hkj
        rcases List.mem_append.1 hk with hk | hk
        · exact h2'.trans (hs.le2 k hk hkj)
        · rw [List.mem_singleton.1 hk]; exact Le.refl (hh j)
    · have e : laneStep h s j = s := by simp [laneStep, h1, h2]
      have h2' := le_of_not_lt (hh j) hsC h2
      rw [e]
      refine ⟨?_, ?_, ?_, ?_⟩
      · rcases hs.min with ⟨e, _, _⟩ | ⟨k, hk, e1, e2⟩
        · exact absurd ((le_iff (hh j) hmC).2 (e ▸ Le.pinf _)) h1
        · exact Or.inr ⟨k, by simp [hk], e1, e2⟩
      · intro k hk
        rcases List.mem_append.1 hk with hk | hk
        · exact hs.le k hk
        · rw [List.mem_singleton.1 hk]; exact h1'
      · rcases hs.sub with e | ⟨k, hk, e⟩
        · exact Or.inl e
        · exact Or.inr ⟨k, by simp [hk], e⟩
      · intro k hk hkj
        rcases List.mem_append.1 hk with hk | hk
        · exact hs.le2 k hk hkj
        · rw [List.mem_singleton.1 hk]; exact h2'

theorem foldl_lane {h : Fin m → XR} (hh : ∀ j, IsC (h j)) (js : List (Fin m)) :
    ∀ {P s}, LaneOk h P s → (P ++ js).Nodup → LaneOk h (P ++ js) (js.foldl (laneStep h) s) := by
  induction js with
  | nil => intro P s hs _; simpa using hs
  | cons j js ih =>
    intro P s hs hnd
    have hj : j ∉ P := fun hj => (List.disjoint_of_nodup_append hnd) hj (by simp)
    have := ih (laneStep_ok hh hs j hj) (by simpa using hnd)
    simpa using this

theorem mem_laneCols {W : Nat} {l : Fin W} {j : Fin m} :
    j ∈ laneCols (m := m) W l ↔ j.val < W * (m / W) ∧ j.val % W = l := by
  have hW : 0 < W := l.pos
  unfold laneCols
  rw [List.mem_ofFn]
  constructor
  · rintro ⟨b, rfl⟩
    have h1 : W * (b + 1) ≤ W * (m / W) := Nat.mul_le_mul_left _ b.isLt
    have h3 := l.isLt
    rw [Nat.mul_add] at h1
    refine ⟨by simp only; omega, ?_⟩
    simp only
    rw [Nat.mul_add_mod, Nat.mod_eq_of_lt h3]
  · rintro ⟨h1, h2⟩
    refine ⟨⟨j.val / W, ?_⟩, ?_⟩
    · rw [Nat.div_lt_iff_lt_mul hW, Nat.mul_comm]; exact h1
    · apply Fin.ext
      simp only
      rw [← h2]
      exact Nat.div_add_mod _ _

theorem laneCols_nodup (W : Nat) (l : Fin W) : (laneCols (m := m) W l).Nodup := by
  unfold laneCols
  rw [List.nodup_ofFn]
  intro a b hab
  have hW : 0 < W := l.pos
  have := congrArg Fin.val hab
  simp only at this
  have h2 : W * a.val = W * b.val := by omega
  exact Fin.ext (Nat.eq_of_mul_eq_mul_left hW h2)

theorem laneRun_ok {h : Fin m → XR} (hh : ∀ j, IsC (h j)) (W : Nat) (l : Fin W) :
    LaneOk h (laneCols W l) (laneRun h W l) := by
  have h0 : LaneOk h [] (Lane.init : Lane m) :=
    ⟨Or.inl ⟨rfl, rfl, rfl⟩, by simp, Or.inl rfl, by simp⟩
  have := foldl_lane hh (laneCols W l) h0 (by simpa using laneCols_nodup W l)
  rw [List.nil_append] at this
  exact this

/-! ## The two loops over the lanes -/

/-- State after the first loop has seen the lanes `Ls`. -/
structure MergeOk (h : Fin m → XR) {W : Nat} (Ls : List (Fin W)) (s : Lane m) : Prop where
  min : (s.umin = pinf ∧ s.j1 = none) ∨
    ∃ l ∈ Ls, ∃ k, s.j1 = some k ∧ (laneRun h W l).j1 = some k ∧ s.umin = h k ∧ IsFin (h k)
  le : ∀ l ∈ Ls, Le s.umin (laneRun h W l).umin
  sub : (s.usub = pinf ∧ s.j2 = none) ∨
    ∃ l ∈ Ls, ∃ k ∈ laneCols (m := m) W l, s.j2 = some k ∧ s.j1 ≠ some k ∧ s.usub = h k ∧
      IsFin (h k)
  le2 : ∀ l ∈ Ls, (laneRun h W l).j1 ≠ s.j1 → Le s.usub (laneRun h W l).umin

theorem MergeOk.minC {h : Fin m → XR} (hh : ∀ j, IsC (h j)) {W : Nat} {Ls : List (Fin W)} {s}
    (hs : MergeOk h Ls s) : IsC s.umin := by
  rcases hs.min with ⟨e, _⟩ | ⟨l, _, k, _, _, e, _⟩
  · exact Or.inl e
  · rw [e]; exact hh k

theorem MergeOk.subC {h : Fin m → XR} (hh : ∀ j, IsC (h j)) {W : Nat} {Ls : List (Fin W)} {s}
    (hs : MergeOk h Ls s) : IsC s.usub := by
  rcases hs.sub with ⟨e, _⟩ | ⟨l, _, k, _, _, _, e, _⟩
  · exact Or.inl e
  · rw [e]; exact hh k

/-- Lanes have no column in common. -/
theorem lane_eq {W : Nat} {l l' : Fin W} {k : Fin m} (h1 : k ∈ laneCols (m := m) W l)
    (h2 : k ∈ laneCols (m := m) W l') : l = l' :=
  Fin.ext ((mem_laneCols.1 h1).2.symm.trans (mem_laneCols.1 h2).2)

theorem LaneOk.j1_mem {h : Fin m → XR} {P s} (hs : LaneOk h P s) {k} (e : s.j1 = some k) :
    k ∈ P ∧ s.umin = h k := by
  rcases hs.min with ⟨_, e', _⟩ | ⟨k', hk, e1, e2⟩
  · rw [e] at e'; cases e'
  · rw [e] at e1
    injection e1 with e1
    subst e1
    exact ⟨hk, e2⟩

theorem mergeMin_ok {h : Fin m → XR} (hh : ∀ j, IsC (h j)) {W : Nat} {Ls : List (Fin W)} {s}
    (hs : MergeOk h Ls s) (l : Fin W) (hl : l ∉ Ls) :
    MergeOk h (Ls ++ [l]) (mergeMin s (laneRun h W l)) := by
  have hL := laneRun_ok hh W l
  have hmC := hs.minC hh
  have hsC := hs.subC hh
  have hLC := hL.minC hh
  have mono : ∀ {p : Fin W → Prop}, (∃ l' ∈ Ls, p l') → ∃ l' ∈ Ls ++ [l], p l' :=
    fun ⟨l', h1, h2⟩ => ⟨l', by simp [h1], h2⟩
  unfold mergeMin
  by_cases h1 : (laneRun h W l).umin.lt s.usub = true
  · rw [if_pos h1]
    have h1' := le_of_lt hLC hsC h1
    obtain ⟨kl, hkl, ekl, eul⟩ : ∃ k ∈ laneCols (m := m) W l, (laneRun h W l).j1 = some k ∧
        (laneRun h W l).umin = h k := by
      rcases hL.min with ⟨e, _⟩ | h2
      · rw [e] at h1; simp at h1
      · exact h2
    have hnew : s.j1 ≠ some kl := by
      rcases hs.min with ⟨_, e⟩ | ⟨l', hl', k, e, e', _⟩ <;> rw [e]
      · simp
      · intro c
        injection c with c
        subst c
        have := lane_eq (laneRun_ok hh W l' |>.j1_mem e').1 hkl
        exact hl (this ▸ hl')
    by_cases h2 : s.umin.le (laneRun h W l).umin = true
    · rw [if_pos h2]
      have h2' := (le_iff hmC hLC).1 h2
      have hfin : IsFin (laneRun h W l).umin := isFin_of_lt hLC h1
      refine ⟨hs.min.imp_right mono, ?_,
        Or.inr ⟨l, by simp, kl, hkl, ekl, hnew, eul, eul ▸ hfin⟩, ?_⟩
      · intro l' hl'
        rcases List.mem_append.1 hl' with hl' | hl'
        · exact hs.le l' hl'
        · rw [List.mem_singleton.1 hl']; exact h2'
      · intro l' hl' hne
        rcases List.mem_append.1 hl' with hl' | hl'
        · exact h1'.trans (hs.le2 l' hl' hne)
        · rw [List.mem_singleton.1 hl']; exact Le.refl hLC
    · rw [if_neg h2]
      have h2' := le_of_not_le hmC hLC h2
      refine ⟨Or.inr ⟨l, by simp, kl, ekl, ekl, eul, eul ▸ isFin_of_lt hLC h1⟩, ?_, ?_, ?_⟩
      · intro l' hl'
        rcases List.mem_append.1 hl' with hl' | hl'
        · exact h2'.trans (hs.le l' hl')
        · rw [List.mem_singleton.1 hl']; exact Le.refl hLC
      · rcases hs.min with ⟨e, e'⟩ | ⟨l', hl', k, e, e', e''⟩
        · exact Or.inl ⟨e, e'⟩
        · refine Or.inr ⟨l', by simp [hl'], k, (laneRun_ok hh W l' |>.j1_mem e').1, e, ?_, e''⟩
          simp only
          rw [ekl, ← e]
          exact hnew.symm
      · intro l' hl' hne
        rcases List.mem_append.1 hl' with hl' | hl'
        · exact hs.le l' hl'
        · exact absurd (by rw [List.mem_singleton.1 hl']) hne
  · rw [if_neg h1]
    have h1' := le_of_not_lt hLC hsC h1
    have hle : Le s.umin s.usub := by
      rcases hs.sub with ⟨e, _⟩ | ⟨l', hl', k, hk, _, _, e, _⟩
      · rw [e]; exact Le.pinf _
      · rw [e]; exact (hs.le l' hl').trans ((laneRun_ok hh W l').le k hk)
    refine ⟨hs.min.imp_right mono, ?_, hs.sub.imp_right mono, ?_⟩
    · intro l' hl'
      rcases List.mem_append.1 hl' with hl' | hl'
      · exact hs.le l' hl'
      · rw [List.mem_singleton.1 hl']; exact hle.trans h1'
    · intro l' hl' hne
      rcases List.mem_append.1 hl' with hl' | hl'
      · exact hs.le2 l' hl' hne
      · rw [List.mem_singleton.1 hl']; exact h1'

theorem foldl_mergeMin {h : Fin m → XR} (hh : ∀ j, IsC (h j)) {W : Nat} (ls : List (Fin W)) :
    ∀ {Ls s}, MergeOk h Ls s → (Ls ++ ls).Nodup →
      MergeOk h (Ls ++ ls) ((ls.map (laneRun h W)).foldl mergeMin s) := by
  induction ls with
  | nil => intro Ls s hs _; simpa using hs
  | cons l ls ih =>
    intro Ls s hs hnd
    have hl : l ∉ Ls := fun hl => (List.disjoint_of_nodup_append hnd) hl (by simp)
    have := ih (mergeMin_ok hh hs l hl) (by simpa using hnd)
    simpa using this

theorem mergeSub_ok {h : Fin m → XR} (hh : ∀ j, IsC (h j)) {W : Nat} {Ls : List (Fin W)} {s}
    (hs : MergeOk h Ls s) (hL : ∀ l : Fin W, l ∈ Ls) (l : Fin W) :
    MergeOk h Ls (mergeSub s (laneRun h W l)) ∧
      Le (mergeSub s (laneRun h W l)).usub s.usub ∧
      Le (mergeSub s (laneRun h W l)).usub (laneRun h W l).usub := by
  have hl := laneRun_ok hh W l
  have hlC := hl.subC hh
  have hsC := hs.subC hh
  unfold mergeSub
  by_cases h1 : (laneRun h W l).usub.lt s.usub = true
  · rw [if_pos h1]
    have h1' := le_of_lt hlC hsC h1
    obtain ⟨k, hk, e1, e2, e3⟩ := hl.sub.resolve_left (fun e => by rw [e] at h1; simp at h1)
    have hnew : s.j1 ≠ some k := by
      rcases hs.min with ⟨_, e⟩ | ⟨l', hl', k', e, e', _⟩ <;> rw [e]
      · simp
      · intro c
        injection c with c
        subst c
        have := lane_eq (laneRun_ok hh W l' |>.j1_mem e').1 hk
        subst this
        exact e2 e'
    refine ⟨⟨hs.min, hs.le, Or.inr ⟨l, hL l, k, hk, e1, hnew, e3, e3 ▸ isFin_of_lt hlC h1⟩, ?_⟩, h1',
      Le.refl hlC⟩
    · intro l' hl' hne
      exact h1'.trans (hs.le2 l' hl' hne)
  · rw [if_neg h1]
    exact ⟨hs, Le.refl hsC, le_of_not_lt hlC hsC h1⟩

theorem foldl_mergeSub {h : Fin m → XR} (hh : ∀ j, IsC (h j)) {W : Nat} {Ls : List (Fin W)}
    (hL : ∀ l : Fin W, l ∈ Ls) (ls : List (Fin W)) :
    ∀ {s}, MergeOk h Ls s → MergeOk h Ls ((ls.map (laneRun h W)).foldl mergeSub s) ∧
      Le ((ls.map (laneRun h W)).foldl mergeSub s).usub s.usub ∧
      ∀ l ∈ ls, Le ((ls.map (laneRun h W)).foldl mergeSub s).usub (laneRun h W l).usub := by
  induction ls with
  | nil => intro s hs; exact ⟨hs, Le.refl (hs.subC hh), by simp⟩
  | cons l ls ih =>
    intro s hs
    obtain ⟨h1, h2, h3⟩ := mergeSub_ok hh hs hL l
    obtain ⟨h4, h5, h6⟩ := ih h1
    refine ⟨h4, h5.trans h2, ?_⟩
    intro l' hl'
    rcases List.mem_cons.1 hl' with rfl | hl'
    · exact h5.trans h3
    · exact h6 l' hl'

/-! ## All columns -/

/-- The scalar state after the columns `P`: like `Umins`, but both indices are `-1` as long as every
reduced cost was `+inf`. -/
structure VecOk (h : Fin m → XR) (P : List (Fin m)) (s : Lane m) : Prop where
  min : (s.umin = pinf ∧ s.j1 = none) ∨ ∃ k ∈ P, s.j1 = some k ∧ s.umin = h k ∧ IsFin (h k)
  le : ∀ j ∈ P, Le s.umin (h j)
  sub : (s.usub = pinf ∧ s.j2 = none) ∨
    ∃ k ∈ P, s.j2 = some k ∧ s.j1 ≠ some k ∧ s.usub = h k ∧ IsFin (h k)
  le2 : ∀ j ∈ P, s.j1 ≠ some j → Le s.usub (h j)

theorem tailStep_ok {h : Fin m → XR} (hh : ∀ j, IsC (h j)) {P s} (hs : VecOk h P s) (j : Fin m)
    (hj : j ∉ P) : VecOk h (P ++ [j]) (tailStep h s j) := by
  have hne : ∀ k ∈ P, k ≠ j := fun k hk e => hj (e ▸ hk)
  have hmC : IsC s.umin := by
    rcases hs.min with ⟨e, _⟩ | ⟨k, _, _, e, _⟩
    · exact Or.inl e
    · rw [e]; exact hh k
  have hsC : IsC s.usub := by
    rcases hs.sub with ⟨e, _⟩ | ⟨k, _, _, _, e, _⟩
    · exact Or.inl e
    · rw [e]; exact hh k
  have hj1 : s.j1 ≠ some j := by
    rcases hs.min with ⟨_, e⟩ | ⟨k, hk, e, _⟩ <;> rw [e]
    · simp
    · simpa using hne k hk
  have mono : ∀ {p : Fin m → Prop}, (∃ k ∈ P, p k) → ∃ k ∈ P ++ [j], p k :=
    fun ⟨k, h1, h2⟩ => ⟨k, by simp [h1], h2⟩
  unfold tailStep
  by_cases h1 : (h j).lt s.usub = true
  · rw [if_pos h1]
    have h1' := le_of_lt (hh j) hsC h1
    have hf := isFin_of_lt (hh j) h1
    by_cases h2 : s.umin.le (h j) = true
    · rw [if_pos h2]
      have h2' := (le_iff hmC (hh j)).1 h2
      refine ⟨hs.min.imp_right mono, ?_, Or.inr ⟨j, by simp, rfl, hj1, rfl, hf⟩, ?_⟩
      · intro k hk
        rcases List.mem_append.1 hk with hk | hk
        · exact hs.le k hk
        · rw [List.mem_singleton.1 hk]; exact h2'
      · intro k hk hkj
        rcases List.mem_append.1 hk with hk | hk
        · exact h1'.trans (hs.le2 k hk hkj)
        · rw [List.mem_singleton.1 hk]; exact Le.refl (hh j)
    · rw [if_neg h2]
      have h2' := le_of_not_le hmC (hh j) h2
      refine ⟨Or.inr ⟨j, by simp, rfl, rfl, hf⟩, ?_, ?_, ?_⟩
      · intro k hk
        rcases List.mem_append.1 hk with hk | hk
        · exact h2'.trans (hs.le k hk)
        · rw [List.mem_singleton.1 hk]; exact Le.refl (hh j)
      · rcases hs.min with e | ⟨k, hk, e1, e2, e3⟩
        · exact Or.inl e
        · refine Or.inr ⟨k, by simp [hk], e1, ?_, e2, e3⟩
          simpa using (hne k hk).symm
      · intro k hk hkj
        rcases List.mem_append.1 hk with hk | hk
        · exact hs.le k hk
        · exact absurd (by rw [List.mem_singleton.1 hk]) hkj
  · rw [if_neg h1]
    have h1' := le_of_not_lt (hh j) hsC h1
    have hle : Le s.umin s.usub := by
      rcases hs.sub with ⟨e, _⟩ | ⟨k, hk, _, _, e, _⟩
      · rw [e]; exact Le.pinf _
      · rw [e]; exact hs.le k hk
    refine ⟨hs.min.imp_right mono, ?_, hs.sub.imp_right mono, ?_⟩
    · intro k hk
      rcases List.mem_append.1 hk with hk | hk
      · exact hs.le k hk
      · rw [List.mem_singleton.1 hk]; exact hle.trans h1'
    · intro k hk hkj
      rcases List.mem_append.1 hk with hk | hk
      · exact hs.le2 k hk hkj
      · rw [List.mem_singleton.1 hk]; exact h1'

theorem foldl_tail {h : Fin m → XR} (hh : ∀ j, IsC (h j)) (js : List (Fin m)) :
    ∀ {P s}, VecOk h P s → (P ++ js).Nodup → VecOk h (P ++ js) (js.foldl (tailStep h) s) := by
  induction js with
  | nil => intro P s hs _; simpa using hs
  | cons j js ih =>
    intro P s hs hnd
    have hj : j ∉ P := fun hj => (List.disjoint_of_nodup_append hnd) hj (by simp)
    have := ih (tailStep_ok hh hs j hj) (by simpa using hnd)
    simpa using this

/-- After all loops the state describes all columns. -/
theorem findUminsVec_ok {W : Nat} (hW : 0 < W) (crow v : Fin m → XR) (hc : ∀ j, IsC (crow j))
    (hv : ∀ j, IsV (v j)) :
    VecOk (fun j => (crow j).sub (v j)) (List.finRange m) (findUminsVec W crow v) := by
  have hh : ∀ j, IsC ((crow j).sub (v j)) := fun j => sub_isC (hc j) (hv j)
  unfold findUminsVec
  simp only
  obtain ⟨h, eh⟩ : ∃ h : Fin m → XR, h = fun j => (crow j).sub (v j) := ⟨_, rfl⟩
  rw [← eh]
  have hh : ∀ j, IsC (h j) := by rw [eh]; exact hh
  have hall : ∀ l : Fin W, l ∈ List.finRange W := List.mem_finRange
  have m0 : MergeOk h ([] : List (Fin W)) (Lane.init : Lane m) :=
    ⟨Or.inl ⟨rfl, rfl⟩, by simp, Or.inl ⟨rfl, rfl⟩, by simp⟩
  have m1 := foldl_mergeMin hh (List.finRange W) m0 (by simpa using List.nodup_finRange W)
  rw [List.nil_append] at m1
  obtain ⟨m2, _, m3⟩ := foldl_mergeSub hh hall (List.finRange W) m1
  revert m2 m3
  generalize ((List.finRange W).map (laneRun h W)).foldl mergeSub
    (((List.finRange W).map (laneRun h W)).foldl mergeMin Lane.init) = s
  intro m2 m3
  have hmem : ∀ j : Fin m, j.val < W * (m / W) →
      j ∈ laneCols (m := m) W ⟨j.val % W, Nat.mod_lt _ hW⟩ :=
    fun j hj => mem_laneCols.2 ⟨hj, rfl⟩
  have hv0 : VecOk h ((List.finRange m).filter fun j : Fin m => !decide (W * (m / W) ≤ j.val)) s := by
    have hin : ∀ {j : Fin m} {l : Fin W}, j ∈ laneCols (m := m) W l →
        j ∈ (List.finRange m).filter fun j : Fin m => !decide (W * (m / W) ≤ j.val) := by
      intro j l hj
      have := (mem_laneCols.1 hj).1
      simp only [List.mem_filter, List.mem_finRange, true_and, Bool.not_eq_true',
        decide_eq_false_iff_not]
      omega
    have hout : ∀ {j : Fin m}, (j ∈ (List.finRange m).filter fun j : Fin m => !decide (W * (m / W) ≤ j.val)) →
        j.val < W * (m / W) := by
      intro j hj
      simp only [List.mem_filter, List.mem_finRange, true_and, Bool.not_eq_true',
        decide_eq_false_iff_not] at hj
      omega
    refine ⟨?_, ?_, ?_, ?_⟩
    · rcases m2.min with e | ⟨l, _, k, e1, e2, e3, e4⟩
      · exact Or.inl e
      · exact Or.inr ⟨k, hin (laneRun_ok hh W l |>.j1_mem e2).1, e1, e3, e4⟩
    · intro j hj
      exact (m2.le _ (hall _)).trans ((laneRun_ok hh W _).le j (hmem j (hout hj)))
    · rcases m2.sub with e | ⟨l, _, k, hk, e1, e2, e3, e4⟩
      · exact Or.inl e
      · exact Or.inr ⟨k, hin hk, e1, e2, e3, e4⟩
    · intro j hj hne
      have hjl := hmem j (hout hj)
      have hl := laneRun_ok hh W ⟨j.val % W, Nat.mod_lt _ hW⟩
      by_cases e : (laneRun h W ⟨j.val % W, Nat.mod_lt _ hW⟩).j1 = some j
      · rw [← (hl.j1_mem e).2]
        exact m2.le2 _ (hall _) (by rw [e]; exact hne.symm)
      · exact (m3 _ (hall _)).trans (hl.le2 j hjl e)
  have hperm : ((List.finRange m).filter (fun j => !decide (W * (m / W) ≤ j.val)) ++
      tailCols m W).Perm (List.finRange m) := by
    have := List.filter_append_perm (fun j : Fin m => decide (W * (m / W) ≤ j.val))
      (List.finRange m)
    exact (List.perm_append_comm).trans this
  have hv1 := foldl_tail hh (tailCols m W) hv0 (hperm.nodup_iff.2 (List.nodup_finRange m))
  have hm : ∀ j : Fin m, j ∈ (List.finRange m).filter (fun j => !decide (W * (m / W) ≤ j.val)) ++
      tailCols m W := fun j => hperm.mem_iff.2 (List.mem_finRange j)
  refine ⟨?_, fun j _ => hv1.le j (hm j), ?_, fun j _ => hv1.le2 j (hm j)⟩
  · exact hv1.min.imp_right fun ⟨k, _, h1⟩ => ⟨k, List.mem_finRange k, h1⟩
  · exact hv1.sub.imp_right fun ⟨k, _, h1⟩ => ⟨k, List.mem_finRange k, h1⟩

/-- The variant with lanes is as good as `find_umins_plain` wherever the solver calls it. -/
theorem findUminsAvx_ok (minDim : Nat) {W : Nat} (hW : 0 < W) :
    FuOk (findUminsAvx (m := m) minDim W) := by
  intro crow v hc hv hfin
  unfold findUminsAvx
  by_cases hm : m < minDim
  · rw [if_pos hm]; exact findUmins_ok crow v hc hv hfin
  · rw [if_neg hm]
    have hV := findUminsVec_ok hW crow v hc hv
    obtain ⟨j, q, hq⟩ := hfin
    rcases hV.min with ⟨e, _⟩ | ⟨k, hk, e1, e2, e3⟩
    · obtain ⟨a, ha, _⟩ := hV.le j (List.mem_finRange j) q hq
      rw [e] at ha; cases ha
    · refine ⟨(findUminsVec W crow v).umin, (findUminsVec W crow v).usub, k,
        (findUminsVec W crow v).j2, by simp only [e1, Option.map_some], hk, e2, hV.le, ?_, ?_⟩
      · rcases hV.sub with ⟨f1, f2⟩ | ⟨k2, hk2, f1, f2, f3, _⟩
        · exact Or.inl ⟨f2, f1⟩
        · refine Or.inr ⟨k2, hk2, ?_, f1, f3⟩
          intro e
          simp only at e
          exact f2 (by rw [e1, e])
      · intro j' hj' hne
        refine hV.le2 j' hj' ?_
        rw [e1]
        intro e
        injection e with e
        exact hne e.symm

/-! ## C76 -/

/-- Two descriptions of the two smallest values agree on the values. -/
theorem vec_eq_umins {h : Fin m → XR} (hh : ∀ j, IsC (h j)) {s : Lane m}
    (hs : VecOk h (List.finRange m) s) {r} (hr : Umins h (List.finRange m) r) :
    s.umin = r.1 ∧ s.usub = r.2.1 := by
  have hall : ∀ j : Fin m, j ∈ List.finRange m := List.mem_finRange
  have hmC : IsC s.umin := by
    rcases hs.min with ⟨e, _⟩ | ⟨k, _, _, e, _⟩
    · exact Or.inl e
    · rw [e]; exact hh k
  have hsC : IsC s.usub := by
    rcases hs.sub with ⟨e, _⟩ | ⟨k, _, _, _, e, _⟩
    · exact Or.inl e
    · rw [e]; exact hh k
  have hrC : IsC r.1 := by rw [hr.min]; exact hh _
  have e1 : s.umin = r.1 := by
    refine Le.antisymm hmC hrC ?_ ?_
    · rw [hr.min]; exact hs.le _ (hall _)
    · rcases hs.min with ⟨e, _⟩ | ⟨k, _, _, e, _⟩
      · rw [e]; exact Le.pinf _
      · rw [e]; exact hr.le _ (hall _)
  have hmin1 : ∀ k, s.j1 = some k → s.umin = h k := by
    intro k hk
    rcases hs.min with ⟨_, e⟩ | ⟨k', _, e, e', _⟩
    · rw [hk] at e; cases e
    · rw [hk] at e
      injection e with e
      rw [e', e]
  have hle : Le s.umin s.usub := by
    rcases hs.sub with ⟨e, _⟩ | ⟨k, hk, _, _, e, _⟩
    · rw [e]; exact Le.pinf _
    · rw [e]; exact hs.le k hk
  refine ⟨e1, Le.antisymm hsC (hr.subC hh) ?_ ?_⟩
  · rcases hr.sub with ⟨_, e⟩ | ⟨k, hk, hne, _, e⟩
    · rw [e]; exact Le.pinf _
    · rw [e]
      by_cases hk1 : s.j1 = some k
      · -- the other minimum is another column than `k`
        have h1 : Le s.usub (h r.2.2.1) := by
          refine hs.le2 _ (hall _) ?_
          rw [hk1]
          intro c
          injection c with c
          exact hne c
        rw [← hr.min, ← e1, hmin1 k hk1] at h1
        exact h1
      · exact hs.le2 k (hall _) hk1
  · rcases hs.sub with ⟨e, _⟩ | ⟨k, hk, _, hne, e, hfin⟩
    · rw [e]; exact Le.pinf _
    · rw [e]
      by_cases hk1 : k = r.2.2.1
      · have h1 : s.umin = h k := by rw [e1, hr.min, hk1]
        rcases hs.min with ⟨e', _⟩ | ⟨k', _, e', e'', _⟩
        · rw [← h1, e'] at hfin
          exact absurd hfin not_isFin_pinf
        · rw [← h1, e'']
          refine hr.le2 k' (hall _) ?_
          rw [← hk1]
          intro c
          exact hne (by rw [e', c])
      · exact hr.le2 k (hall _) hk1

/-- C76: for every row of costs that are finite or `+inf` and all column prices that are finite or
`-inf`, in any number of lanes, the search in lanes returns the same smallest and second smallest
reduced cost as `find_umins_plain`.  Its `j1` is a column with the smallest reduced cost, unless all
are `+inf`; its `j2` is another column with the second smallest, unless that is `+inf`. -/
theorem C76_lanes {W : Nat} (hW : 0 < W) (crow v : Fin m → XR)
    (hc : ∀ j, crow j = pinf ∨ ∃ q, crow j = fin q) (hv : ∀ j, v j = ninf ∨ ∃ q, v j = fin q)
    {umin usub : XR} {j1 : Fin m} {j2 : Option (Fin m)}
    (hp : findUmins crow v = some (umin, usub, j1, j2)) :
    let r := findUminsVec W crow v
    r.umin = umin ∧ r.usub = usub ∧
      ((∃ j, ∃ q, (crow j).sub (v j) = fin q) →
        ∃ k, r.j1 = some k ∧ (crow k).sub (v k) = umin ∧
          -- the column is the same one if it is the only one with that reduced cost
          ((∀ j, (crow j).sub (v j) = umin → j = k) → k = j1)) ∧
      (usub ≠ pinf → ∃ k, r.j2 = some k ∧ r.j1 ≠ some k ∧ (crow k).sub (v k) = usub) := by
  intro r
  have hV := findUminsVec_ok hW crow v hc hv
  obtain ⟨a, b, c, d, hf, hU⟩ := findUmins_spec crow v hc hv j1.pos
  rw [hp] at hf
  injection hf with hf
  rw [← hf] at hU
  obtain ⟨e1, e2⟩ := vec_eq_umins (fun j => sub_isC (hc j) (hv j)) hV hU
  refine ⟨e1, e2, ?_, ?_⟩
  · rintro ⟨j, q, hq⟩
    rcases hV.min with ⟨e, _⟩ | ⟨k, _, f1, f2, _⟩
    · obtain ⟨a, ha, _⟩ := hV.le j (List.mem_finRange j) q hq
      rw [e] at ha; cases ha
    · refine ⟨k, f1, ?_, ?_⟩
      · exact f2.symm.trans e1
      · intro huniq
        exact (huniq j1 hU.min.symm).symm
  · intro hne
    rcases hV.sub with ⟨e, _⟩ | ⟨k, _, f1, f2, f3, _⟩
    · exact absurd (e2.symm.trans e) hne
    · exact ⟨k, f1, f2, f3.symm.trans e2⟩

/-- A row of 18 columns: two full rounds of eight lanes and two columns left, or four rounds of four
lanes; the smallest values are in one lane of either. -/
def exRow : Fin 18 → XR :=
  ![fin 9, pinf, fin 7, fin 5, fin 9, fin 8, pinf, fin 8, fin 9, fin 7, fin 7, fin (-2), pinf, fin 9,
    fin 6, fin 4, fin 1, pinf]

/-- Prices of its columns. -/
def exPrice : Fin 18 → XR := fun j => if j.val = 3 then fin 6 else if j.val = 7 then ninf else fin 0

theorem exRow_ok : (∀ j, exRow j = pinf ∨ ∃ q, exRow j = fin q) ∧
    ∀ j, exPrice j = ninf ∨ ∃ q, exPrice j = fin q := by
  constructor
  · intro j
    fin_cases j <;> first | exact Or.inl rfl | exact Or.inr ⟨_, rfl⟩
  · intro j
    fin_cases j <;> first | exact Or.inl rfl | exact Or.inr ⟨_, rfl⟩

example : findUmins exRow exPrice = some (fin (-2), fin (-1), 11, some 3) ∧
    findUminsVec 8 exRow exPrice = ⟨fin (-2), fin (-1), some 11, some 3⟩ ∧
    findUminsVec 4 exRow exPrice = ⟨fin (-2), fin (-1), some 11, some 3⟩ := by decide +kernel

example := C76_lanes (W := 8) (by decide) exRow exPrice exRow_ok.1 exRow_ok.2
  (show findUmins exRow exPrice = some (fin (-2), fin (-1), 11, some 3) by decide +kernel)

/-- C76: `lap` in a build with AVX2 gives the same answer and the same cost as without, and its
assignment is optimal, for every matrix with at most 30 rows and finite or `+inf` entries. -/
theorem C76_same_optimum {C : Cost n m} (hC : ∀ i j, C i j = pinf ∨ ∃ q, C i j = fin q)
    (hn : n ≤ 30) :
    ∃ F b sol sol', (∀ fuel, F ≤ fuel → lap C fuel = some (b, sol) ∧
        lapAvx C fuel = some (b, sol')) ∧ sol.cost = sol'.cost ∧
      (b = true → ∃ (σ : Fin n → Fin m) (c : Fin n → ℚ), (∀ i, sol'.rowsol i = some (σ i)) ∧
        Function.Injective σ ∧ (∀ i, C i (σ i) = fin (c i)) ∧ sol'.cost = fin (∑ i, c i) ∧
        ∀ (τ : Fin n → Fin m) (d : Fin n → ℚ), Function.Injective τ →
          (∀ i, C i (τ i) = fin (d i)) → ∑ i, c i ≤ ∑ i, d i) := by
  obtain ⟨F1, b1, s1, hr1, hi1, hf1, ht1⟩ := lap_spec (C := C) hC hn
  obtain ⟨F2, b2, s2, hr2, hi2, hf2, ht2⟩ :=
    lapWith_spec (findUminsAvx_ok 100000 (W := 4) (by decide)) (C := C) hC hn
  have hb : b1 = b2 := by
    cases b1 <;> cases b2 <;> simp_all
  subst hb
  refine ⟨max F1 F2, b1, s1, s2, ?_, ?_, ?_⟩
  · intro fuel hfu
    exact ⟨hr1 fuel (by omega), hr2 fuel (by omega)⟩
  · cases b1 with
    | false => rw [(hf1 rfl).2.2, (hf2 rfl).2.2]
    | true =>
      obtain ⟨σ1, _, g1, o1, c1, _⟩ := ht1 rfl
      obtain ⟨σ2, _, g2, o2, c2, _⟩ := ht2 rfl
      rw [c1, c2, le_antisymm (o1 _ g2) (o2 _ g1)]
  · intro hb
    obtain ⟨σ, h1, h2, h3, h4, _, _⟩ := ht2 hb
    refine ⟨σ, fun i => (C i (σ i)).val, h1, h2.1, fun i => (h2.2 i).eq, h4, ?_⟩
    intro τ d hτ hd
    have := h3 τ ⟨hτ, fun i => ⟨d i, hd i⟩⟩
    unfold total at this
    simp only [hd, val_fin] at this
    exact this

/-- A matrix that is large enough for the vector code: two rows and 100003 columns. -/
example := C76_same_optimum (n := 2) (m := 100003)
  (C := fun i j => if j.val % 7 = i.val then pinf else fin ((j.val % 5 : ℕ) : ℚ))
  (fun i j => by
    by_cases h : j.val % 7 = i.val
    · exact Or.inl (if_pos h)
    · exact Or.inr ⟨_, if_neg h⟩) (by decide)

/-! ### Where the variants differ -/

theorem foldl_lane_const (c : ℚ) (js : List (Fin m)) : ∀ s : Lane m,
    s.umin = pinf ∨ s.umin = fin c →
    (js.foldl (laneStep fun _ => fin c) s).j1 = (js.getLast?).or s.j1 ∧
      (js ≠ [] → (js.foldl (laneStep fun _ => fin c) s).umin = fin c) := by
  induction js with
  | nil => intro s _; simp
  | cons j js ih =>
    intro s hs
    have hcmp : (fin c).le s.umin = true := by
      rcases hs with e | e <;> rw [e]
      · rfl
      · simp [le_fin_fin]
    have e : laneStep (fun _ => fin c) s j = ⟨fin c, s.umin, some j, s.j1⟩ := by
      simp [laneStep, hcmp]
    rw [List.foldl_cons, e]
    obtain ⟨h1, h2⟩ := ih ⟨fin c, s.umin, some j, s.j1⟩ (Or.inr rfl)
    refine ⟨?_, ?_⟩
    · rw [h1, List.getLast?_cons]
      cases js.getLast? <;> rfl
    · intro _
      by_cases hjs : js = []
      · subst hjs; rfl
      · exact h2 hjs

theorem foldl_mergeMin_const {c : ℚ} {k : Option (Fin m)} (ls : List (Lane m)) :
    (∀ l ∈ ls, l.umin = fin c) → ∀ s : Lane m, s.umin = fin c → s.j1 = k →
      (ls.foldl mergeMin s).umin = fin c ∧ (ls.foldl mergeMin s).j1 = k := by
  induction ls with
  | nil => intro _ s h1 h2; exact ⟨h1, h2⟩
  | cons l ls ih =>
    intro hl s h1 h2
    rw [List.foldl_cons]
    refine ih (fun x hx => hl x (by simp [hx])) _ ?_ ?_
    all_goals
      unfold mergeMin
      rw [hl l (by simp), h1]
      simp only [le_fin_fin, le_refl, decide_true, if_true]
      split <;> first | rfl | assumption

theorem foldl_mergeSub_j1 (ls : List (Lane m)) : ∀ s : Lane m,
    (ls.foldl mergeSub s).umin = s.umin ∧ (ls.foldl mergeSub s).j1 = s.j1 := by
  induction ls with
  | nil => intro s; exact ⟨rfl, rfl⟩
  | cons l ls ih =>
    intro s
    rw [List.foldl_cons]
    have : (mergeSub s l).umin = s.umin ∧ (mergeSub s l).j1 = s.j1 := by
      unfold mergeSub
      split <;> exact ⟨rfl, rfl⟩
    rw [(ih _).1, (ih _).2]
    exact this

theorem foldl_tail_const {c : ℚ} (js : List (Fin m)) : ∀ s : Lane m, s.umin = fin c →
    (js.foldl (tailStep fun _ => fin c) s).j1 = s.j1 := by
  induction js with
  | nil => intro s _; rfl
  | cons j js ih =>
    intro s hs
    rw [List.foldl_cons]
    have : (tailStep (fun _ => fin c) s j).umin = fin c ∧
        (tailStep (fun _ => fin c) s j).j1 = s.j1 := by
      unfold tailStep
      rw [hs]
      simp only [le_fin_fin, le_refl, decide_true, if_true]
      split
      · exact ⟨rfl, rfl⟩
      · exact ⟨hs, rfl⟩
    rw [ih _ this.1, this.2]

/-- If all reduced costs are equal, the search in lanes returns the last column of the first lane. -/
theorem vec_const {W : Nat} (hW : 0 < W) (hm : W ≤ m) {crow v : Fin m → XR} {c : ℚ}
    (hh : ∀ j, (crow j).sub (v j) = fin c) :
    ∃ k : Fin m, (findUminsVec W crow v).j1 = some k ∧ k.val = W * (m / W - 1) := by
  obtain ⟨W, rfl⟩ : ∃ w, W = w + 1 := ⟨W - 1, by omega⟩
  have hq : 0 < m / (W + 1) := Nat.div_pos hm hW
  have eh : (fun j => (crow j).sub (v j)) = fun _ => fin c := funext hh
  unfold findUminsVec
  simp only [eh]
  have hne : ∀ l : Fin (W + 1), laneCols (m := m) (W + 1) l ≠ [] := by
    intro l e
    have := congrArg List.length e
    simp only [laneCols, List.length_ofFn, List.length_nil] at this
    omega
  have hrun : ∀ l : Fin (W + 1), (laneRun (fun _ : Fin m => fin c) (W + 1) l).umin = fin c := by
    intro l
    exact (foldl_lane_const c _ Lane.init (Or.inl rfl)).2 (hne l)
  have h0 : (laneRun (fun _ : Fin m => fin c) (W + 1) 0).j1 =
      some ((laneCols (m := m) (W + 1) 0).getLast (hne 0)) := by
    rw [laneRun, (foldl_lane_const c _ Lane.init (Or.inl rfl)).1,
      List.getLast?_eq_some_getLast (hne 0)]
    rfl
  have hM : (((List.finRange (W + 1)).map (laneRun (fun _ : Fin m => fin c) (W + 1))).foldl mergeMin
      Lane.init).umin = fin c ∧
      (((List.finRange (W + 1)).map (laneRun (fun _ : Fin m => fin c) (W + 1))).foldl mergeMin
      Lane.init).j1 = some ((laneCols (m := m) (W + 1) 0).getLast (hne 0)) := by
    rw [List.finRange_succ, List.map_cons, List.foldl_cons]
    refine foldl_mergeMin_const _ ?_ _ ?_ ?_
    · intro l hl
      simp only [List.mem_map] at hl
      obtain ⟨a, _, rfl⟩ := hl
      exact hrun a
    · simp only [mergeMin, hrun 0, Lane.init]
      rfl
    · simp only [mergeMin, hrun 0, Lane.init]
      exact h0
  refine ⟨(laneCols (m := m) (W + 1) 0).getLast (hne 0), ?_, ?_⟩
  · rw [foldl_tail_const, (foldl_mergeSub_j1 _ _).2, hM.2]
    rw [(foldl_mergeSub_j1 _ _).1, hM.1]
  · rw [List.getLast_eq_getElem]
    simp [laneCols]

theorem plain_const {crow v : Fin m → XR} {c : ℚ} (hm : 0 < m)
    (hh : ∀ j, (crow j).sub (v j) = fin c) :
    ∃ umin usub j2, findUmins crow v = some (umin, usub, ⟨0, hm⟩, j2) := by
  obtain ⟨m, rfl⟩ : ∃ k, m = k + 1 := ⟨m - 1, by omega⟩
  have eh : (fun j => (crow j).sub (v j)) = fun _ => fin c := funext hh
  unfold findUmins
  rw [List.finRange_succ]
  simp only [eh]
  have : ∀ (js : List (Fin (m + 1))) (s : XR × XR × Fin (m + 1) × Option (Fin (m + 1))),
      s.1 = fin c → (js.foldl (uminsStep fun _ => fin c) s).2.2.1 = s.2.2.1 := by
    intro js
    induction js with
    | nil => intro s _; rfl
    | cons j js ih =>
      intro s hs
      rw [List.foldl_cons]
      have : (uminsStep (fun _ => fin c) s j).1 = fin c ∧
          (uminsStep (fun _ => fin c) s j).2.2.1 = s.2.2.1 := by
        unfold uminsStep
        rw [hs]
        simp only [le_fin_fin, le_refl, decide_true, if_true]
        split
        · exact ⟨rfl, rfl⟩
        · exact ⟨hs, rfl⟩
      rw [ih _ this.1, this.2]
  have h0 := this ((List.finRange m).map Fin.succ) ((crow 0).sub (v 0), pinf, 0, none) (hh 0)
  revert h0
  generalize ((List.finRange m).map Fin.succ).foldl (uminsStep fun _ => fin c)
    ((crow 0).sub (v 0), pinf, 0, none) = t
  rintro h0
  obtain ⟨a, b, j1, j2⟩ := t
  simp only at h0
  exact ⟨a, b, j2, by rw [h0]; rfl⟩

/-- `lap` on one row of equal costs assigns the column found by `fu`. -/
theorem lap_const {fu : FindUmins m} (hfu : FuOk fu) (hm : 2 ≤ m) (c : ℚ) {umin usub : XR}
    {j1 : Fin m} {j2 : Option (Fin m)}
    (hf : fu (fun _ => fin c) (fun _ => fin 0) = some (umin, usub, j1, j2)) :
    ∀ fuel, 2 ≤ fuel → ∃ sol, lapWith fu (fun (_ : Fin 1) _ => fin c) fuel = some (true, sol) ∧
      sol.rowsol 0 = some j1 := by
  intro fuel hfuel
  obtain ⟨f, rfl⟩ : ∃ f, fuel = f + 2 := ⟨fuel - 2, by omega⟩
  obtain ⟨a, b, j, j', hf', hU⟩ := hfu (fun _ => fin c) (fun _ => fin 0) (fun _ => Or.inr ⟨c, rfl⟩)
    (fun _ => Or.inr ⟨0, rfl⟩) ⟨⟨0, by omega⟩, _, rfl⟩
  rw [hf] at hf'
  injection hf' with hf'
  rw [← hf'] at hU
  have hmin : umin = fin c := by have := hU.min; simpa using this
  have hsub : usub = fin c := by
    rcases hU.sub with ⟨_, e⟩ | ⟨k, _, _, _, e⟩
    · obtain ⟨k, hk⟩ : ∃ k : Fin m, k ≠ j1 := by
        by_cases h0 : j1 = ⟨0, by omega⟩
        · exact ⟨⟨1, by omega⟩, by rw [h0]; simp [Fin.ext_iff]⟩
        · exact ⟨⟨0, by omega⟩, fun e => h0 e.symm⟩
      have := hU.le2 k (List.mem_finRange k) hk
      simp only at e this
      rw [e] at this
      obtain ⟨x, hx, _⟩ := this _ rfl
      cases hx
    · simpa using e
  have hH : hallCheck (fun (_ : Fin 1) (_ : Fin m) => fin c) = some true := by
    rcases hallCheck_spec (C := fun (_ : Fin 1) (_ : Fin m) => fin c)
      (fun _ _ => Or.inr ⟨c, rfl⟩) (by decide) with h | h
    · exact h.1
    · exact absurd ⟨fun _ => ⟨0, by omega⟩, fun _ _ _ => Subsingleton.elim _ _, fun _ => ⟨c, rfl⟩⟩
        h.2
  have hst : arrStep fu (fun (_ : Fin 1) _ => fin c) 0
      ⟨fun _ => none, fun _ => none, fun _ => fin 0⟩ =
      some (⟨Function.update (fun _ => none) 0 (some j1),
        Function.update (fun _ => none) j1 (some 0), fun _ => fin 0⟩, .nothing) := by
    unfold arrStep
    rw [hf, hmin, hsub]
    simp
  have hrun : rlapWith fu (fun (_ : Fin 1) _ => fin c) (f + 2) (fun _ => fin 0) (fun _ => fin 0) =
      some (finish (fun (_ : Fin 1) _ => fin c) (fun _ => fin 0)
        ⟨Function.update (fun _ => none) 0 (some j1),
        Function.update (fun _ => none) j1 (some 0), fun _ => fin 0⟩) := by
    have hfr : List.finRange 1 = [0] := by decide
    simp [rlapWith, arrLoop, hfr, hst, augmentAll]
  refine ⟨finish (fun (_ : Fin 1) _ => fin c) (fun _ => fin 0)
        ⟨Function.update (fun _ => none) 0 (some j1),
        Function.update (fun _ => none) j1 (some 0), fun _ => fin 0⟩, ?_, ?_⟩
  · unfold lapWith
    rw [hH]
    simp only [hrun, Option.map_some]
    congr 2
  · simp [finish]

/-- C76, where builds differ: on one row with the same cost in each of at least 100000 columns, the
build without AVX2 assigns the first column and the build with AVX2 a column further right.  Which
of several optimal assignments is returned depends on the compiler flags. -/
theorem C76_assignment_refuted (hm : 100000 ≤ m) (c : ℚ) :
    ∀ fuel, 2 ≤ fuel → ∃ sol sol' k k',
      lap (fun (_ : Fin 1) (_ : Fin m) => fin c) fuel = some (true, sol) ∧
      lapAvx (fun (_ : Fin 1) (_ : Fin m) => fin c) fuel = some (true, sol') ∧
      sol.rowsol 0 = some k ∧ sol'.rowsol 0 = some k' ∧ k.val = 0 ∧ k'.val = 4 * (m / 4 - 1) ∧
      k ≠ k' := by
  intro fuel hfuel
  have hh : ∀ j : Fin m, ((fun _ => fin c : Fin m → XR) j).sub ((fun _ => fin 0 : Fin m → XR) j) =
      fin c := by intro j; simp
  obtain ⟨a, b, j2, hp⟩ := plain_const (m := m) (by omega) hh
  obtain ⟨k, hk, hkv⟩ := vec_const (W := 4) (by decide) (by omega) hh
  have hv : findUminsAvx (m := m) 100000 4 (fun _ => fin c) (fun _ => fin 0) =
      some ((findUminsVec 4 (m := m) (fun _ => fin c) (fun _ => fin 0)).umin,
        (findUminsVec 4 (m := m) (fun _ => fin c) (fun _ => fin 0)).usub, k,
        (findUminsVec 4 (m := m) (fun _ => fin c) (fun _ => fin 0)).j2) := by
    unfold findUminsAvx
    rw [if_neg (by omega)]
    simp only [hk, Option.map_some]
  obtain ⟨sol, h1, h2⟩ := lap_const findUmins_ok (by omega) c hp fuel hfuel
  obtain ⟨sol', h3, h4⟩ := lap_const (findUminsAvx_ok 100000 (by decide)) (by omega) c hv fuel hfuel
  refine ⟨sol, sol', _, k, h1, h3, h2, h4, rfl, hkv, ?_⟩
  intro e
  rw [← e] at hkv
  simp only at hkv
  omega

example := C76_assignment_refuted (m := 100000) (le_refl _) 0 2 (le_refl _)

/-- C76, where the searches differ: if all reduced costs of a row are `+inf`, `find_umins_plain`
returns column 0 and the search in lanes returns `-1`, which `rlap` would use as an index.  `lap`
never gets there: its check of the subsets of rows returns `false` first (`C76_same_optimum`). -/
theorem C76_all_infinite {W : Nat} (hW : 0 < W) (hm : 0 < m) (crow v : Fin m → XR)
    (hc : ∀ j, crow j = pinf ∨ ∃ q, crow j = fin q) (hv : ∀ j, v j = ninf ∨ ∃ q, v j = fin q)
    (hinf : ∀ j, (crow j).sub (v j) = pinf) :
    findUmins crow v = some (pinf, pinf, ⟨0, hm⟩, none) ∧
      findUminsVec W crow v = ⟨pinf, pinf, none, none⟩ := by
  constructor
  · obtain ⟨m, rfl⟩ : ∃ k, m = k + 1 := ⟨m - 1, by omega⟩
    have eh : (fun j => (crow j).sub (v j)) = fun _ => pinf := funext hinf
    unfold findUmins
    rw [List.finRange_succ]
    simp only [eh]
    have : ∀ (js : List (Fin (m + 1))) (s : XR × XR × Fin (m + 1) × Option (Fin (m + 1))),
        js.foldl (uminsStep fun _ => pinf) s = s := by
      intro js
      induction js with
      | nil => intro s; rfl
      | cons j js ih => intro s; rw [List.foldl_cons, ih]; simp [uminsStep]
    rw [this, hinf 0]
    rfl
  · have hV := findUminsVec_ok hW crow v hc hv
    revert hV
    generalize findUminsVec W crow v = s
    intro hV
    have nf : ∀ k, ¬ IsFin ((crow k).sub (v k)) := fun k h => by
      rw [hinf k] at h; exact not_isFin_pinf h
    rcases hV.min with ⟨e1, e2⟩ | ⟨k, _, _, _, h⟩
    · rcases hV.sub with ⟨e3, e4⟩ | ⟨k, _, _, _, _, h⟩
      · cases s
        simp only at e1 e2 e3 e4
        rw [e1, e2, e3, e4]
      · exact absurd h (nf k)
    · exact absurd h (nf k)

example := C76_all_infinite (W := 8) (m := 64) (by decide) (by decide) (fun _ => fin 3)
  (fun _ => ninf) (fun _ => Or.inr ⟨3, rfl⟩) (fun _ => Or.inl rfl) (fun _ => rfl)

end Verif.Lap
