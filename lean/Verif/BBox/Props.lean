import Verif.BBox.Model
import Mathlib.Tactic.Linarith
import Mathlib.Tactic.Ring
import Mathlib.Tactic.FieldSimp
import Mathlib.Tactic.NormNum

/-! # Properties C44, C45, C46, C60, C61 and C62: boxes -/

namespace Verif.BBox

variable {K : Type*} [Field K] [LinearOrder K]

theorem AABB.within_iff (a : AABB K) (p : Pt K) :
    a.within p = true ↔ a.x0 ≤ p.1 ∧ p.1 ≤ a.x1 ∧ a.y0 ≤ p.2 ∧ p.2 ≤ a.y1 := by
  unfold AABB.within
  simp only [Bool.not_eq_true', Bool.or_eq_false_iff, decide_eq_false_iff_not, not_lt]
  tauto

theorem AABB.intersects_iff (a b : AABB K) :
    a.intersects b = true ↔ b.x0 ≤ a.x1 ∧ a.x0 ≤ b.x1 ∧ a.y0 ≤ b.y1 ∧ b.y0 ≤ a.y1 := by
  unfold AABB.intersects
  simp only [Bool.not_eq_true', Bool.or_eq_false_iff, decide_eq_false_iff_not, not_lt]
  tauto

/-! ## C44 -/

/-- C44: `intersects` holds exactly if the boxes have a common point. -/
theorem C44_intersects (a b : AABB K) (ha : a.x0 ≤ a.x1 ∧ a.y0 ≤ a.y1)
    (hb : b.x0 ≤ b.x1 ∧ b.y0 ≤ b.y1) :
    a.intersects b = true ↔ ∃ p : Pt K, a.within p = true ∧ b.within p = true := by
  simp only [AABB.within_iff]
  rw [AABB.intersects_iff]
  constructor
  · rintro ⟨h1, h2, h3, h4⟩
    exact ⟨(max a.x0 b.x0, max a.y0 b.y0),
      ⟨le_max_left _ _, max_le ha.1 h1, le_max_left _ _, max_le ha.2 h4⟩,
      ⟨le_max_right _ _, max_le h2 hb.1, le_max_right _ _, max_le h3 hb.2⟩⟩
  · rintro ⟨p, ⟨a1, a2, a3, a4⟩, ⟨b1, b2, b3, b4⟩⟩
    exact ⟨b1.trans a2, a1.trans b2, a3.trans b4, b3.trans a4⟩

/-- C44: `intersects` is symmetric, also for boxes turned inside out. -/
theorem C44_symm (a b : AABB K) : a.intersects b = b.intersects a := by
  rw [Bool.eq_iff_iff, AABB.intersects_iff, AABB.intersects_iff]
  tauto

/-- C44: `within` is the four inequalities. -/
theorem C44_within (a : AABB K) (p : Pt K) :
    a.within p = true ↔ (a.x0 ≤ p.1 ∧ p.1 ≤ a.x1) ∧ a.y0 ≤ p.2 ∧ p.2 ≤ a.y1 := by
  rw [AABB.within_iff]
  tauto

/-- C44: the box of a set of points contains them all and is contained in every box that does. -/
theorem C44_from_points (p : Pt K) (l : List (Pt K)) :
    ∃ b, AABB.fromPoints (p :: l) = some b ∧ (∀ q ∈ p :: l, b.within q = true) ∧
      ∀ b' : AABB K, (∀ q ∈ p :: l, b'.within q = true) →
        ∀ q, b.within q = true → b'.within q = true := by
  have key : ∀ (l : List (Pt K)) (b : AABB K), b.x0 ≤ b.x1 → b.y0 ≤ b.y1 →
      (∀ q, b.within q = true ∨ q ∈ l → (l.foldl
        (fun b q => (⟨min b.x0 q.1, min b.y0 q.2, max b.x1 q.1, max b.y1 q.2⟩ : AABB K)) b).within q
          = true) ∧
      ∀ b' : AABB K, (b'.x0 ≤ b.x0 ∧ b'.y0 ≤ b.y0 ∧ b.x1 ≤ b'.x1 ∧ b.y1 ≤ b'.y1) →
        (∀ q ∈ l, b'.within q = true) → ∀ q, (l.foldl
        (fun b q => (⟨min b.x0 q.1, min b.y0 q.2, max b.x1 q.1, max b.y1 q.2⟩ : AABB K)) b).within q
          = true → b'.within q = true := by
    intro l
    induction l with
    | nil =>
      intro b _ _
      refine ⟨?_, ?_⟩
      · rintro q (h | h)
        · exact h
        · cases h
      · intro b' hb _ q hq
        rw [List.foldl_nil, AABB.within_iff] at hq
        rw [AABB.within_iff]
        exact ⟨hb.1.trans hq.1, hq.2.1.trans hb.2.2.1, hb.2.1.trans hq.2.2.1,
          hq.2.2.2.trans hb.2.2.2⟩
    | cons a l ih =>
      intro b hx hy
      have ih' := ih ⟨min b.x0 a.1, min b.y0 a.2, max b.x1 a.1, max b.y1 a.2⟩
        ((min_le_left _ _).trans (hx.trans (le_max_left _ _)))
        ((min_le_left _ _).trans (hy.trans (le_max_left _ _)))
      refine ⟨?_, ?_⟩
      · intro q hq
        apply ih'.1
        rcases hq with hq | hq
        · left
          rw [AABB.within_iff] at hq ⊢
          exact ⟨(min_le_left _ _).trans hq.1, hq.2.1.trans (le_max_left _ _),
            (min_le_left _ _).trans hq.2.2.1, hq.2.2.2.trans (le_max_left _ _)⟩
        · rcases List.mem_cons.1 hq with rfl | hq
          · left
            rw [AABB.within_iff]
            exact ⟨min_le_right _ _, le_max_right _ _, min_le_right _ _, le_max_right _ _⟩
          · exact Or.inr hq
      · intro b' hb hl
        apply ih'.2 b'
        · have := hl a (List.mem_cons_self ..)
          rw [AABB.within_iff] at this
          exact ⟨le_min hb.1 this.1, le_min hb.2.1 this.2.2.1, max_le hb.2.2.1 this.2.1,
            max_le hb.2.2.2 this.2.2.2⟩
        · exact fun q hq => hl q (List.mem_cons_of_mem _ hq)
  have k := key l ⟨p.1, p.2, p.1, p.2⟩ (le_refl _) (le_refl _)
  refine ⟨_, rfl, ?_, ?_⟩
  · intro q hq
    apply k.1
    rcases List.mem_cons.1 hq with rfl | hq
    · left
      rw [AABB.within_iff]
      exact ⟨le_refl _, le_refl _, le_refl _, le_refl _⟩
    · exact Or.inr hq
  · intro b' hb'
    apply k.2
    · have := hb' p (List.mem_cons_self ..)
      rw [AABB.within_iff] at this
      exact ⟨this.1, this.2.2.1, this.2.1, this.2.2.2⟩
    · exact fun q hq => hb' q (List.mem_cons_of_mem _ hq)

example := C44_intersects (⟨0, 0, 2, 1⟩ : AABB ℚ) ⟨1, -1, 3, 1 / 2⟩ (by norm_num) (by norm_num)
example := C44_symm (⟨0, 0, 2, 1⟩ : AABB ℚ) ⟨1, -1, 3, 1 / 2⟩
example := C44_within (⟨0, 0, 2, 1⟩ : AABB ℚ) (1, 1)
example := C44_from_points ((1, 2) : Pt ℚ) [(3, 1), (0, 0)]

/-! ## C45 -/

theorem Box.aabbox_within_iff (b : Box K) (p : Pt K) :
    b.aabbox.within p = true ↔
      (b.c0.1 ≤ p.1 ∨ b.c1.1 ≤ p.1 ∨ b.c2.1 ≤ p.1 ∨ b.c3.1 ≤ p.1) ∧
      (p.1 ≤ b.c0.1 ∨ p.1 ≤ b.c1.1 ∨ p.1 ≤ b.c2.1 ∨ p.1 ≤ b.c3.1) ∧
      (b.c0.2 ≤ p.2 ∨ b.c1.2 ≤ p.2 ∨ b.c2.2 ≤ p.2 ∨ b.c3.2 ≤ p.2) ∧
      (p.2 ≤ b.c0.2 ∨ p.2 ≤ b.c1.2 ∨ p.2 ≤ b.c2.2 ∨ p.2 ≤ b.c3.2) := by
  have hm : ∀ s t u v : K, min (min (min s t) u) v ≤ max (max (max s t) u) v := fun s t u v =>
    (min_le_right _ _).trans (le_max_right _ _)
  rw [AABB.within_iff]
  unfold Box.aabbox AABB.mk4
  simp only
  rw [min_eq_left (hm _ _ _ _), min_eq_left (hm _ _ _ _), max_eq_right (hm _ _ _ _),
    max_eq_right (hm _ _ _ _)]
  simp only [min_le_iff, le_max_iff, or_assoc]

variable [IsStrictOrderedRing K]

/-- C45: for a box made from an `AABBox`, `within` is membership in the half-open box. -/
theorem C45_axis_aligned (a : AABB K) (ha : a.x0 ≤ a.x1 ∧ a.y0 ≤ a.y1) (p : Pt K) :
    (Box.ofAABB a).within p = true ↔
      (a.x0 ≤ p.1 ∧ p.1 < a.x1) ∧ a.y0 ≤ p.2 ∧ p.2 < a.y1 := by
  have h1 : ∀ u v y x : K, toggles (u, y) (v, y) (x, p.2) = false := by
    intro u v y x
    unfold toggles
    simp
  have t0 : toggles (a.x1, a.y1) (a.x0, a.y1) p = false := h1 _ _ _ p.1
  have t2 : toggles (a.x0, a.y0) (a.x1, a.y0) p = false := h1 _ _ _ p.1
  have t1 : toggles (a.x1, a.y0) (a.x1, a.y1) p = true ↔
      (a.y0 ≤ p.2 ∧ p.2 < a.y1) ∧ p.1 < a.x1 := by
    unfold toggles
    simp only [sub_self, zero_mul, zero_div, zero_add, Bool.and_eq_true, bne_iff_ne, ne_eq,
      decide_eq_true_eq, decide_eq_decide]
    constructor
    · rintro ⟨h, h'⟩
      refine ⟨?_, h'⟩
      by_contra hn
      apply h
      constructor
      · intro hlt
        exact lt_of_lt_of_le hlt ha.2
      · intro hlt
        by_contra hle
        exact hn ⟨not_lt.1 hle, hlt⟩
    · rintro ⟨⟨h, h'⟩, h''⟩
      exact ⟨fun hh => absurd (hh.2 h') (not_lt.2 h), h''⟩
  have t3 : toggles (a.x0, a.y1) (a.x0, a.y0) p = true ↔
      (a.y0 ≤ p.2 ∧ p.2 < a.y1) ∧ p.1 < a.x0 := by
    unfold toggles
    simp only [sub_self, zero_mul, zero_div, zero_add, Bool.and_eq_true, bne_iff_ne, ne_eq,
      decide_eq_true_eq, decide_eq_decide]
    constructor
    · rintro ⟨h, h'⟩
      refine ⟨?_, h'⟩
      by_contra hn
      apply h
      constructor
      · intro hlt
        by_contra hle
        exact hn ⟨not_lt.1 hle, hlt⟩
      · intro hlt
        exact lt_of_lt_of_le hlt ha.2
    · rintro ⟨⟨h, h'⟩, h''⟩
      exact ⟨fun hh => absurd (hh.1 h') (not_lt.2 h), h''⟩
  have hbox : (Box.ofAABB a).aabbox.within p = true ↔
      (a.x0 ≤ p.1 ∧ p.1 ≤ a.x1) ∧ a.y0 ≤ p.2 ∧ p.2 ≤ a.y1 := by
    rw [Box.aabbox_within_iff]
    simp only [Box.ofAABB]
    constructor
    · rintro ⟨h1, h2, h3, h4⟩
      refine ⟨⟨?_, ?_⟩, ?_, ?_⟩
      · rcases h1 with h | h | h | h <;> linarith [ha.1]
      · rcases h2 with h | h | h | h <;> linarith [ha.1]
      · rcases h3 with h | h | h | h <;> linarith [ha.2]
      · rcases h4 with h | h | h | h <;> linarith [ha.2]
    · rintro ⟨⟨h1, h2⟩, h3, h4⟩
      tauto
  unfold Box.within
  by_cases hb : (Box.ofAABB a).aabbox.within p = true
  · rw [hb]
    simp only [Bool.not_true, Bool.false_eq_true, if_false]
    simp only [Box.ofAABB, t0, t2, Bool.false_eq_true, if_false, Bool.not_false]
    have hb' := hbox.1 hb
    by_cases h : toggles (a.x1, a.y0) (a.x1, a.y1) p = true
    · have h' := t1.1 h
      rw [if_pos h]
      by_cases g : toggles (a.x0, a.y1) (a.x0, a.y0) p = true
      · exact absurd (t3.1 g).2 (not_lt.2 hb'.1.1)
      · rw [if_neg g]
        exact ⟨fun _ => ⟨⟨hb'.1.1, h'.2⟩, h'.1⟩, fun _ => rfl⟩
    · rw [if_neg h]
      have g : ¬ toggles (a.x0, a.y1) (a.x0, a.y0) p = true := fun g =>
        absurd (t3.1 g).2 (not_lt.2 hb'.1.1)
      rw [if_neg g]
      constructor
      · intro hh; cases hh
      · rintro ⟨⟨_, g2⟩, g3⟩
        exact absurd (t1.2 ⟨g3, g2⟩) h
  · have hb0 : (Box.ofAABB a).aabbox.within p = false := by
      cases hc : (Box.ofAABB a).aabbox.within p with
      | true => exact absurd hc hb
      | false => rfl
    rw [hb0]
    simp only [Bool.not_false, if_true]
    constructor
    · intro hh; cases hh
    · rintro ⟨⟨g1, g2⟩, g3, g4⟩
      exact absurd (hbox.2 ⟨⟨g1, g2.le⟩, g3, g4.le⟩) hb

/-- `p` is a convex combination of the corners. -/
def InHull (b : Box K) (p : Pt K) : Prop :=
  ∃ w0 w1 w2 w3 : K, 0 ≤ w0 ∧ 0 ≤ w1 ∧ 0 ≤ w2 ∧ 0 ≤ w3 ∧ w0 + w1 + w2 + w3 = 1 ∧
    p.1 = w0 * b.c0.1 + w1 * b.c1.1 + w2 * b.c2.1 + w3 * b.c3.1 ∧
    p.2 = w0 * b.c0.2 + w1 * b.c1.2 + w2 * b.c2.2 + w3 * b.c3.2

theorem InHull.mix {b : Box K} {p q : Pt K} (hp : InHull b p) (hq : InHull b q) {t : K}
    (h0 : 0 ≤ t) (h1 : t ≤ 1) {r : Pt K} (hr1 : r.1 = (1 - t) * p.1 + t * q.1)
    (hr2 : r.2 = (1 - t) * p.2 + t * q.2) : InHull b r := by
  obtain ⟨w0, w1, w2, w3, a0, a1, a2, a3, as, ax, ay⟩ := hp
  obtain ⟨v0, v1, v2, v3, b0, b1, b2, b3, bs, bx, by'⟩ := hq
  have h1' : 0 ≤ 1 - t := by linarith
  have hm : ∀ w v : K, 0 ≤ w → 0 ≤ v → 0 ≤ (1 - t) * w + t * v := fun w v hw hv =>
    add_nonneg (mul_nonneg h1' hw) (mul_nonneg h0 hv)
  refine ⟨(1 - t) * w0 + t * v0, (1 - t) * w1 + t * v1, (1 - t) * w2 + t * v2,
    (1 - t) * w3 + t * v3, hm _ _ a0 b0, hm _ _ a1 b1, hm _ _ a2 b2, hm _ _ a3 b3, ?_, ?_, ?_⟩
  · calc _ = (1 - t) * (w0 + w1 + w2 + w3) + t * (v0 + v1 + v2 + v3) := by ring
      _ = 1 := by rw [as, bs]; ring
  · rw [hr1, ax, bx]; ring
  · rw [hr2, ay, by']; ring

/-- The point at height `p.2` of the line through `ci` and `cj`. -/
def crossing (ci cj p : Pt K) : Pt K :=
  ((cj.1 - ci.1) * (p.2 - ci.2) / (cj.2 - ci.2) + ci.1, p.2)

theorem crossing_mix {b : Box K} {ci cj p : Pt K} (hi : InHull b ci) (hj : InHull b cj)
    (h : (decide (p.2 < ci.2) != decide (p.2 < cj.2)) = true) : InHull b (crossing ci cj p) := by
  rw [bne_iff_ne, ne_eq, decide_eq_decide] at h
  have hcase : (p.2 < ci.2 ∧ cj.2 ≤ p.2) ∨ (p.2 < cj.2 ∧ ci.2 ≤ p.2) := by
    by_cases h1 : p.2 < ci.2 <;> by_cases h2 : p.2 < cj.2
    · exact absurd ⟨fun _ => h2, fun _ => h1⟩ h
    · exact Or.inl ⟨h1, not_lt.1 h2⟩
    · exact Or.inr ⟨h2, not_lt.1 h1⟩
    · exact absurd ⟨fun g => absurd g h1, fun g => absurd g h2⟩ h
  have hne : cj.2 - ci.2 ≠ 0 := by
    intro h0
    rcases hcase with ⟨g1, g2⟩ | ⟨g1, g2⟩ <;> linarith
  refine hi.mix hj (t := (p.2 - ci.2) / (cj.2 - ci.2)) ?_ ?_ ?_ ?_
  · rcases hcase with ⟨g1, g2⟩ | ⟨g1, g2⟩
    · exact div_nonneg_of_nonpos (by linarith) (by linarith)
    · exact div_nonneg (by linarith) (by linarith)
  · rcases hcase with ⟨g1, g2⟩ | ⟨g1, g2⟩
    · rw [div_le_one_of_neg (by linarith)]; linarith
    · rw [div_le_one (by linarith)]; linarith
  · unfold crossing
    simp only
    field_simp
    ring
  · unfold crossing
    simp only
    field_simp
    ring

theorem mem_hull (b : Box K) : InHull b b.c0 ∧ InHull b b.c1 ∧ InHull b b.c2 ∧ InHull b b.c3 :=
  ⟨⟨1, 0, 0, 0, zero_le_one, le_refl _, le_refl _, le_refl _, by ring, by ring, by ring⟩,
   ⟨0, 1, 0, 0, le_refl _, zero_le_one, le_refl _, le_refl _, by ring, by ring, by ring⟩,
   ⟨0, 0, 1, 0, le_refl _, le_refl _, zero_le_one, le_refl _, by ring, by ring, by ring⟩,
   ⟨0, 0, 0, 1, le_refl _, le_refl _, le_refl _, zero_le_one, by ring, by ring, by ring⟩⟩

theorem parity : ∀ b0 b1 b2 b3 t0 t1 t2 t3 : Bool,
    (let c := false
     let c := if (b0 != b3) && t0 then !c else c
     let c := if (b1 != b0) && t1 then !c else c
     let c := if (b2 != b1) && t2 then !c else c
     if (b3 != b2) && t3 then !c else c) = true →
    ((((b0 != b3) && t0) || ((b1 != b0) && t1) || ((b2 != b1) && t2) || ((b3 != b2) && t3)) &&
     (((b0 != b3) && !t0) || ((b1 != b0) && !t1) || ((b2 != b1) && !t2) || ((b3 != b2) && !t3)))
      = true := by
  decide

/-- C45, for any four corners: a point `within` the box is a convex combination of the corners. -/
theorem C45_sound (b : Box K) (p : Pt K) (h : b.within p = true) : InHull b p := by
  obtain ⟨m0, m1, m2, m3⟩ := mem_hull b
  unfold Box.within at h
  split at h
  · cases h
  have hp := parity (decide (p.2 < b.c0.2)) (decide (p.2 < b.c1.2)) (decide (p.2 < b.c2.2))
    (decide (p.2 < b.c3.2))
    (decide (p.1 < (crossing b.c0 b.c3 p).1)) (decide (p.1 < (crossing b.c1 b.c0 p).1))
    (decide (p.1 < (crossing b.c2 b.c1 p).1)) (decide (p.1 < (crossing b.c3 b.c2 p).1)) h
  rw [Bool.and_eq_true] at hp
  have hr : ∃ q, InHull b q ∧ q.2 = p.2 ∧ p.1 < q.1 := by
    have := hp.1
    simp only [Bool.or_eq_true, Bool.and_eq_true, decide_eq_true_eq] at this
    rcases this with ((⟨s, t⟩ | ⟨s, t⟩) | ⟨s, t⟩) | ⟨s, t⟩
    · exact ⟨_, crossing_mix m0 m3 s, rfl, t⟩
    · exact ⟨_, crossing_mix m1 m0 s, rfl, t⟩
    · exact ⟨_, crossing_mix m2 m1 s, rfl, t⟩
    · exact ⟨_, crossing_mix m3 m2 s, rfl, t⟩
  have hl : ∃ q, InHull b q ∧ q.2 = p.2 ∧ q.1 ≤ p.1 := by
    have := hp.2
    simp only [Bool.or_eq_true, Bool.and_eq_true, Bool.not_eq_true', decide_eq_false_iff_not,
      not_lt] at this
    rcases this with ((⟨s, t⟩ | ⟨s, t⟩) | ⟨s, t⟩) | ⟨s, t⟩
    · exact ⟨_, crossing_mix m0 m3 s, rfl, t⟩
    · exact ⟨_, crossing_mix m1 m0 s, rfl, t⟩
    · exact ⟨_, crossing_mix m2 m1 s, rfl, t⟩
    · exact ⟨_, crossing_mix m3 m2 s, rfl, t⟩
  obtain ⟨q, hq, hq2, hq1⟩ := hr
  obtain ⟨r, hr, hr2, hr1⟩ := hl
  have hpos : 0 < q.1 - r.1 := by linarith
  refine hr.mix hq (t := (p.1 - r.1) / (q.1 - r.1)) ?_ ?_ ?_ ?_
  · exact div_nonneg (by linarith) hpos.le
  · rw [div_le_one hpos]; linarith
  · field_simp
    ring
  · rw [hq2, hr2]; ring

/-- Twice the signed area of the triangle `a`, `b`, `p`: positive if `p` lies to the left of the
line from `a` to `b`. -/
def side (a b p : Pt K) : K := (b.1 - a.1) * (p.2 - a.2) - (b.2 - a.2) * (p.1 - a.1)

theorem pos_right {a b : K} (h : 0 < a * b) (ha : 0 ≤ a) : 0 < b := by
  by_contra hb
  exact absurd h (not_lt.2 (mul_nonpos_of_nonneg_of_nonpos ha (not_lt.1 hb)))

/-- Four vectors that follow each other counterclockwise do not fit in a closed half plane. -/
theorem no_halfplane {f0 f1 f2 f3 g0 g1 g2 g3 : K} (h0 : 0 ≤ f0) (h1 : 0 ≤ f1) (h2 : 0 ≤ f2)
    (h3 : 0 ≤ f3) (c0 : 0 < f3 * g0 - f0 * g3) (c1 : 0 < f0 * g1 - f1 * g0)
    (c2 : 0 < f1 * g2 - f2 * g1) (c3 : 0 < f2 * g3 - f3 * g2) : False := by
  have pos : ∀ {f f' f'' g g' g'' : K}, 0 ≤ f → 0 ≤ f' → 0 ≤ f'' → 0 < f * g' - f' * g →
      0 < f' * g'' - f'' * g' → 0 < f' := by
    intro f f' f'' g g' g'' hf hf' hf'' a b
    rcases hf'.lt_or_eq with h | h
    · exact h
    · exfalso
      rw [← h] at a b
      have a' : 0 < f * g' := by linarith
      have b' : 0 < f'' * (-g') := by linarith
      have := pos_right a' hf
      have := pos_right b' hf''
      linarith
  have p0 := pos h3 h0 h1 c0 c1
  have p1 := pos h0 h1 h2 c1 c2
  have p2 := pos h1 h2 h3 c2 c3
  have p3 := pos h2 h3 h0 c3 c0
  have q0 : g3 / f3 < g0 / f0 := by rw [div_lt_div_iff₀ p3 p0]; linarith
  have q1 : g0 / f0 < g1 / f1 := by rw [div_lt_div_iff₀ p0 p1]; linarith
  have q2 : g1 / f1 < g2 / f2 := by rw [div_lt_div_iff₀ p1 p2]; linarith
  have q3 : g2 / f2 < g3 / f3 := by rw [div_lt_div_iff₀ p2 p3]; linarith
  exact absurd (q0.trans (q1.trans (q2.trans q3))) (lt_irrefl _)

/-- Nor can two of them in a row of three be above and the middle one below on both sides. -/
theorem no_zigzag {x0 x1 x2 x3 y0 y1 y2 y3 : K} (h0 : 0 < y0) (h1 : y1 ≤ 0) (h2 : 0 < y2)
    (h3 : y3 ≤ 0) (c0 : 0 < x3 * y0 - x0 * y3) (c1 : 0 < x0 * y1 - x1 * y0)
    (c2 : 0 < x1 * y2 - x2 * y1) (c3 : 0 < x2 * y3 - x3 * y2) : False := by
  have a1 := mul_pos c1 h2
  have a2 := mul_pos c2 h0
  have b1 := mul_pos c3 h0
  have b2 := mul_pos c0 h2
  have k1 : 0 < -y1 * (x2 * y0 - x0 * y2) := by
    have e : -y1 * (x2 * y0 - x0 * y2) = (x0 * y1 - x1 * y0) * y2 + (x1 * y2 - x2 * y1) * y0 := by
      ring
    rw [e]; linarith
  have k2 : 0 < -y3 * (x0 * y2 - x2 * y0) := by
    have e : -y3 * (x0 * y2 - x2 * y0) = (x2 * y3 - x3 * y2) * y0 + (x3 * y0 - x0 * y3) * y2 := by
      ring
    rw [e]; linarith
  have := pos_right k1 (by linarith)
  have := pos_right k2 (by linarith)
  linarith

theorem toggles_left {ci cj p : Pt K} (h : 0 < side cj ci p) :
    toggles ci cj p = (decide (p.2 < ci.2) && !decide (p.2 < cj.2)) := by
  unfold side at h
  unfold toggles
  by_cases h1 : p.2 < ci.2 <;> by_cases h2 : p.2 < cj.2
  · simp [h1, h2]
  · have hneg : cj.2 - ci.2 < 0 := by linarith [not_lt.1 h2]
    have : p.1 < (cj.1 - ci.1) * (p.2 - ci.2) / (cj.2 - ci.2) + ci.1 := by
      rw [← sub_lt_iff_lt_add, lt_div_iff_of_neg hneg]
      nlinarith
    simp [h1, h2, this]
  · have hpos : 0 < cj.2 - ci.2 := by linarith [not_lt.1 h1]
    have : ¬ p.1 < (cj.1 - ci.1) * (p.2 - ci.2) / (cj.2 - ci.2) + ci.1 := by
      rw [not_lt, ← le_sub_iff_add_le, div_le_iff₀ hpos]
      nlinarith
    simp [h1, h2, this]
  · simp [h1, h2]

theorem toggles_right {ci cj p : Pt K} (h : side cj ci p < 0) :
    toggles ci cj p = (!decide (p.2 < ci.2) && decide (p.2 < cj.2)) := by
  unfold side at h
  unfold toggles
  by_cases h1 : p.2 < ci.2 <;> by_cases h2 : p.2 < cj.2
  · simp [h1, h2]
  · have hneg : cj.2 - ci.2 < 0 := by linarith [not_lt.1 h2]
    have : ¬ p.1 < (cj.1 - ci.1) * (p.2 - ci.2) / (cj.2 - ci.2) + ci.1 := by
      rw [not_lt, ← le_sub_iff_add_le, div_le_iff_of_neg hneg]
      nlinarith
    simp [h1, h2, this]
  · have hpos : 0 < cj.2 - ci.2 := by linarith [not_lt.1 h1]
    have : p.1 < (cj.1 - ci.1) * (p.2 - ci.2) / (cj.2 - ci.2) + ci.1 := by
      rw [← sub_lt_iff_lt_add, lt_div_iff₀ hpos]
      nlinarith
    simp [h1, h2, this]
  · simp [h1, h2]

/-- C45, for any four corners: a point strictly to the left of all four sides, or strictly to the
right of all of them, is `within`. -/
theorem C45_complete (b : Box K) (p : Pt K)
    (h : (0 < side b.c3 b.c0 p ∧ 0 < side b.c0 b.c1 p ∧ 0 < side b.c1 b.c2 p ∧
        0 < side b.c2 b.c3 p) ∨
      (side b.c3 b.c0 p < 0 ∧ side b.c0 b.c1 p < 0 ∧ side b.c1 b.c2 p < 0 ∧
        side b.c2 b.c3 p < 0)) :
    b.within p = true := by
  have hbox : b.aabbox.within p = true := by
    rw [Box.aabbox_within_iff]
    unfold side at h
    refine ⟨?_, ?_, ?_, ?_⟩ <;> by_contra hn <;>
      (obtain ⟨n0, n1, n2, n3⟩ : _ ∧ _ ∧ _ ∧ _ := by simpa only [not_or, not_le] using hn) <;>
      rcases h with ⟨s0, s1, s2, s3⟩ | ⟨s0, s1, s2, s3⟩
    · exact no_halfplane (f0 := b.c0.1 - p.1) (f1 := b.c1.1 - p.1) (f2 := b.c2.1 - p.1)
        (f3 := b.c3.1 - p.1) (g0 := b.c0.2 - p.2) (g1 := b.c1.2 - p.2) (g2 := b.c2.2 - p.2)
        (g3 := b.c3.2 - p.2) (by linarith) (by linarith) (by linarith) (by linarith)
        (by linarith) (by linarith) (by linarith) (by linarith)
    · exact no_halfplane (f0 := b.c0.1 - p.1) (f1 := b.c1.1 - p.1) (f2 := b.c2.1 - p.1)
        (f3 := b.c3.1 - p.1) (g0 := p.2 - b.c0.2) (g1 := p.2 - b.c1.2) (g2 := p.2 - b.c2.2)
        (g3 := p.2 - b.c3.2) (by linarith) (by linarith) (by linarith) (by linarith)
        (by linarith) (by linarith) (by linarith) (by linarith)
    · exact no_halfplane (f0 := p.1 - b.c0.1) (f1 := p.1 - b.c1.1) (f2 := p.1 - b.c2.1)
        (f3 := p.1 - b.c3.1) (g0 := p.2 - b.c0.2) (g1 := p.2 - b.c1.2) (g2 := p.2 - b.c2.2)
        (g3 := p.2 - b.c3.2) (by linarith) (by linarith) (by linarith) (by linarith)
        (by linarith) (by linarith) (by linarith) (by linarith)
    · exact no_halfplane (f0 := p.1 - b.c0.1) (f1 := p.1 - b.c1.1) (f2 := p.1 - b.c2.1)
        (f3 := p.1 - b.c3.1) (g0 := b.c0.2 - p.2) (g1 := b.c1.2 - p.2) (g2 := b.c2.2 - p.2)
        (g3 := b.c3.2 - p.2) (by linarith) (by linarith) (by linarith) (by linarith)
        (by linarith) (by linarith) (by linarith) (by linarith)
    · exact no_halfplane (f0 := b.c0.2 - p.2) (f1 := b.c1.2 - p.2) (f2 := b.c2.2 - p.2)
        (f3 := b.c3.2 - p.2) (g0 := p.1 - b.c0.1) (g1 := p.1 - b.c1.1) (g2 := p.1 - b.c2.1)
        (g3 := p.1 - b.c3.1) (by linarith) (by linarith) (by linarith) (by linarith)
        (by linarith) (by linarith) (by linarith) (by linarith)
    · exact no_halfplane (f0 := b.c0.2 - p.2) (f1 := b.c1.2 - p.2) (f2 := b.c2.2 - p.2)
        (f3 := b.c3.2 - p.2) (g0 := b.c0.1 - p.1) (g1 := b.c1.1 - p.1) (g2 := b.c2.1 - p.1)
        (g3 := b.c3.1 - p.1) (by linarith) (by linarith) (by linarith) (by linarith)
        (by linarith) (by linarith) (by linarith) (by linarith)
    · exact no_halfplane (f0 := p.2 - b.c0.2) (f1 := p.2 - b.c1.2) (f2 := p.2 - b.c2.2)
        (f3 := p.2 - b.c3.2) (g0 := b.c0.1 - p.1) (g1 := b.c1.1 - p.1) (g2 := b.c2.1 - p.1)
        (g3 := b.c3.1 - p.1) (by linarith) (by linarith) (by linarith) (by linarith)
        (by linarith) (by linarith) (by linarith) (by linarith)
    · exact no_halfplane (f0 := p.2 - b.c0.2) (f1 := p.2 - b.c1.2) (f2 := p.2 - b.c2.2)
        (f3 := p.2 - b.c3.2) (g0 := p.1 - b.c0.1) (g1 := p.1 - b.c1.1) (g2 := p.1 - b.c2.1)
        (g3 := p.1 - b.c3.1) (by linarith) (by linarith) (by linarith) (by linarith)
        (by linarith) (by linarith) (by linarith) (by linarith)
  unfold Box.within
  rw [hbox]
  simp only [Bool.not_true, Bool.false_eq_true, if_false]
  rcases h with ⟨s0, s1, s2, s3⟩ | ⟨s0, s1, s2, s3⟩
  · rw [toggles_left s0, toggles_left s1, toggles_left s2, toggles_left s3]
    unfold side at s0 s1 s2 s3
    by_cases b0 : p.2 < b.c0.2 <;> by_cases b1 : p.2 < b.c1.2 <;> by_cases b2 : p.2 < b.c2.2 <;>
      by_cases b3 : p.2 < b.c3.2 <;> simp [b0, b1, b2, b3]
    · exact no_halfplane (f0 := b.c0.2 - p.2) (f1 := b.c1.2 - p.2) (f2 := b.c2.2 - p.2)
        (f3 := b.c3.2 - p.2) (g0 := p.1 - b.c0.1) (g1 := p.1 - b.c1.1) (g2 := p.1 - b.c2.1)
        (g3 := p.1 - b.c3.1) (by linarith) (by linarith) (by linarith) (by linarith)
        (by linarith) (by linarith) (by linarith) (by linarith)
    · exact no_zigzag (y0 := b.c0.2 - p.2) (y1 := b.c1.2 - p.2) (y2 := b.c2.2 - p.2)
        (y3 := b.c3.2 - p.2) (x0 := b.c0.1 - p.1) (x1 := b.c1.1 - p.1) (x2 := b.c2.1 - p.1)
        (x3 := b.c3.1 - p.1) (by linarith) (by linarith) (by linarith) (by linarith)
        (by linarith) (by linarith) (by linarith) (by linarith)
    · exact no_zigzag (y0 := b.c1.2 - p.2) (y1 := b.c2.2 - p.2) (y2 := b.c3.2 - p.2)
        (y3 := b.c0.2 - p.2) (x0 := b.c1.1 - p.1) (x1 := b.c2.1 - p.1) (x2 := b.c3.1 - p.1)
        (x3 := b.c0.1 - p.1) (by linarith) (by linarith) (by linarith) (by linarith)
        (by linarith) (by linarith) (by linarith) (by linarith)
    · exact no_halfplane (f0 := p.2 - b.c0.2) (f1 := p.2 - b.c1.2) (f2 := p.2 - b.c2.2)
        (f3 := p.2 - b.c3.2) (g0 := b.c0.1 - p.1) (g1 := b.c1.1 - p.1) (g2 := b.c2.1 - p.1)
        (g3 := b.c3.1 - p.1) (by linarith) (by linarith) (by linarith) (by linarith)
        (by linarith) (by linarith) (by linarith) (by linarith)
  · rw [toggles_right s0, toggles_right s1, toggles_right s2, toggles_right s3]
    unfold side at s0 s1 s2 s3
    by_cases b0 : p.2 < b.c0.2 <;> by_cases b1 : p.2 < b.c1.2 <;> by_cases b2 : p.2 < b.c2.2 <;>
      by_cases b3 : p.2 < b.c3.2 <;> simp [b0, b1, b2, b3]
    · exact no_halfplane (f0 := b.c0.2 - p.2) (f1 := b.c1.2 - p.2) (f2 := b.c2.2 - p.2)
        (f3 := b.c3.2 - p.2) (g0 := b.c0.1 - p.1) (g1 := b.c1.1 - p.1) (g2 := b.c2.1 - p.1)
        (g3 := b.c3.1 - p.1) (by linarith) (by linarith) (by linarith) (by linarith)
        (by linarith) (by linarith) (by linarith) (by linarith)
    · exact no_zigzag (y0 := b.c0.2 - p.2) (y1 := b.c1.2 - p.2) (y2 := b.c2.2 - p.2)
        (y3 := b.c3.2 - p.2) (x0 := p.1 - b.c0.1) (x1 := p.1 - b.c1.1) (x2 := p.1 - b.c2.1)
        (x3 := p.1 - b.c3.1) (by linarith) (by linarith) (by linarith) (by linarith)
        (by linarith) (by linarith) (by linarith) (by linarith)
    · exact no_zigzag (y0 := b.c1.2 - p.2) (y1 := b.c2.2 - p.2) (y2 := b.c3.2 - p.2)
        (y3 := b.c0.2 - p.2) (x0 := p.1 - b.c1.1) (x1 := p.1 - b.c2.1) (x2 := p.1 - b.c3.1)
        (x3 := p.1 - b.c0.1) (by linarith) (by linarith) (by linarith) (by linarith)
        (by linarith) (by linarith) (by linarith) (by linarith)
    · exact no_halfplane (f0 := p.2 - b.c0.2) (f1 := p.2 - b.c1.2) (f2 := p.2 - b.c2.2)
        (f3 := p.2 - b.c3.2) (g0 := p.1 - b.c0.1) (g1 := p.1 - b.c1.1) (g2 := p.1 - b.c2.1)
        (g3 := p.1 - b.c3.1) (by linarith) (by linarith) (by linarith) (by linarith)
        (by linarith) (by linarith) (by linarith) (by linarith)

/-- A rotated square. -/
def exDiamond : Box ℚ := ⟨(0, 2), (-2, 0), (0, -2), (2, 0)⟩

example := C45_axis_aligned (⟨0, 0, 2, 1⟩ : AABB ℚ) (by norm_num) (0, 0)
example : InHull exDiamond (-1, 1 / 2) := C45_sound exDiamond (-1, 1 / 2) (by decide +kernel)
example : exDiamond.within (1, 1 / 2) = true :=
  C45_complete exDiamond (1, 1 / 2) (by unfold exDiamond side; norm_num)

/-! ## C46 -/

theorem intersects_iff (a b : Box K) : a.intersects b = true ↔
    (((b.within a.c0 = true ∨ b.within a.c1 = true) ∨ b.within a.c2 = true) ∨
      b.within a.c3 = true) ∨
    (((a.within b.c0 = true ∨ a.within b.c1 = true) ∨ a.within b.c2 = true) ∨
      a.within b.c3 = true) ∨ a = b ∨
    (1 / 1000000000 ≤ denom a b ∧ a.within (center a b) = true) := by
  unfold Box.intersects
  generalize b.within a.c0 = w0
  generalize b.within a.c1 = w1
  generalize b.within a.c2 = w2
  generalize b.within a.c3 = w3
  generalize a.within b.c0 = v0
  generalize a.within b.c1 = v1
  generalize a.within b.c2 = v2
  generalize a.within b.c3 = v3
  generalize a.within (center a b) = z
  cases w0 <;> try simp only [Bool.false_eq_true, if_false, if_true, true_or, false_or, or_true]
  cases w1 <;> try simp only [Bool.false_eq_true, if_false, if_true, true_or, false_or, or_true]
  cases w2 <;> try simp only [Bool.false_eq_true, if_false, if_true, true_or, false_or, or_true]
  cases w3 <;> try simp only [Bool.false_eq_true, if_false, if_true, true_or, false_or, or_true]
  cases v0 <;> try simp only [Bool.false_eq_true, if_false, if_true, true_or, false_or, or_true]
  cases v1 <;> try simp only [Bool.false_eq_true, if_false, if_true, true_or, false_or, or_true]
  cases v2 <;> try simp only [Bool.false_eq_true, if_false, if_true, true_or, false_or, or_true]
  cases v3 <;> try simp only [Bool.false_eq_true, if_false, if_true, true_or, false_or, or_true]
  by_cases he : a = b
  · rw [if_pos he]
    exact ⟨fun _ => Or.inl he, fun _ => rfl⟩
  · rw [if_neg he]
    by_cases hd : denom a b < 1 / 1000000000
    · rw [if_pos hd]
      constructor
      · intro h; cases h
      · rintro (h | h)
        · exact absurd h he
        · exact absurd hd (not_lt.2 h.1)
    · rw [if_neg hd]
      constructor
      · intro h; exact Or.inr ⟨not_lt.1 hd, h⟩
      · rintro (h | h)
        · exact absurd h he
        · exact h.2

/-- C46, what holds: a corner of one box within the other is noticed, in both orders. -/
theorem C46_corner (a b : Box K)
    (h : (b.within a.c0 || b.within a.c1 || b.within a.c2 || b.within a.c3) = true) :
    a.intersects b = true ∧ b.intersects a = true := by
  simp only [Bool.or_eq_true] at h
  constructor
  · rw [intersects_iff]
    exact Or.inl h
  · rw [intersects_iff]
    exact Or.inr (Or.inl h)

/-- A box lying down, one standing up across it, one far above, and two with a common corner. -/
def exFlat : Box ℚ := Box.ofAABB ⟨-3, -1, 3, 1⟩
/-- See `exFlat`. -/
def exTall : Box ℚ := Box.ofAABB ⟨-1, -3, 1, 3⟩
/-- See `exFlat`. -/
def exUnit : Box ℚ := Box.ofAABB ⟨-1, -1, 1, 1⟩
/-- See `exFlat`. -/
def exAbove : Box ℚ := Box.ofAABB ⟨-1 / 200, 19 / 2, 1 / 200, 21 / 2⟩
/-- See `exFlat`. -/
def exLong : Box ℚ := Box.ofAABB ⟨0, 0, 3, 1⟩
/-- See `exFlat`. -/
def exPost : Box ℚ := Box.ofAABB ⟨2, -1, 3, 1⟩

/-- C46, refuted: `intersects` is not symmetric; it holds for boxes that have no point in common;
and boxes whose interiors overlap can be missed in both orders (`(5/2, 1/2)` is within both). -/
theorem C46_refuted :
    exFlat.intersects exTall = true ∧ exTall.intersects exFlat = false ∧
    exUnit.intersects exAbove = true ∧ (¬ ∃ p, InHull exUnit p ∧ InHull exAbove p) ∧
    exLong.intersects exPost = false ∧ exPost.intersects exLong = false ∧
    exLong.within (5 / 2, 1 / 2) = true ∧ exPost.within (5 / 2, 1 / 2) = true := by
  refine ⟨by decide +kernel, by decide +kernel, by decide +kernel, ?_, by decide +kernel,
    by decide +kernel, by decide +kernel, by decide +kernel⟩
  rintro ⟨p, ⟨w0, w1, w2, w3, h0, h1, h2, h3, hs, _, hy⟩,
    ⟨v0, v1, v2, v3, g0, g1, g2, g3, gs, _, gy⟩⟩
  simp only [exUnit, exAbove, Box.ofAABB] at hy gy
  linarith

theorem intersects_of_corner_left {a b : Box K} {c : Pt K} (hc : c = a.c0 ∨ c = a.c1 ∨ c = a.c2 ∨
    c = a.c3) (h : b.within c = true) : a.intersects b = true ∧ b.intersects a = true := by
  apply C46_corner
  rcases hc with rfl | rfl | rfl | rfl <;> simp [h]

theorem intersects_of_center {a b : Box K} (hd : 1 / 1000000000 ≤ denom a b)
    (h : a.within (center a b) = true) : a.intersects b = true := by
  rw [intersects_iff]
  exact Or.inr (Or.inr (Or.inr ⟨hd, h⟩))

/-- The crossing case of `C46_axis_aligned`. -/
theorem cross_case (a b : AABB K) (hx : a.x0 < b.x0) (hx' : b.x0 < b.x1) (hx1 : b.x1 ≤ a.x1)
    (hy : b.y0 < a.y0) (hy' : a.y0 < a.y1) (hy1 : a.y1 ≤ b.y1) (hne : ¬ (a.x1 = b.x1 ∧ a.y1 = b.y1))
    (hd : 1 / 1000000000 ≤ (a.x1 - a.x0) * (b.y1 - b.y0) - (a.y1 - a.y0) * (b.x1 - b.x0)) :
    (Box.ofAABB a).intersects (Box.ofAABB b) = true := by
  have hden : denom (Box.ofAABB a) (Box.ofAABB b) =
      (a.x1 - a.x0) * (b.y1 - b.y0) - (a.y1 - a.y0) * (b.x1 - b.x0) := rfl
  have hsm : (0 : K) < 1 / 1000000000 := by norm_num
  have hpos := lt_of_lt_of_le hsm hd
  have hn : 0 < (b.x0 - a.x0) * (b.y1 - b.y0) + (a.y0 - b.y0) * (b.x1 - b.x0) :=
    add_pos (mul_pos (by linarith) (by linarith)) (mul_pos (by linarith) (by linarith))
  have hn1 : 0 < (a.x1 - b.x0) * (b.y1 - b.y0) - (a.y1 - b.y0) * (b.x1 - b.x0) := by
    have e : (a.x1 - b.x0) * (b.y1 - b.y0) - (a.y1 - b.y0) * (b.x1 - b.x0) =
        (a.x1 - b.x1) * (b.y1 - b.y0) + (b.y1 - a.y1) * (b.x1 - b.x0) := by ring
    rw [e]
    rcases hx1.lt_or_eq with h | h
    · exact add_pos_of_pos_of_nonneg (mul_pos (by linarith) (by linarith))
        (mul_nonneg (by linarith) (by linarith))
    · have h' : a.y1 < b.y1 := lt_of_le_of_ne hy1 fun h' => hne ⟨h.symm, h'⟩
      exact add_pos_of_nonneg_of_pos (mul_nonneg (by linarith) (by linarith))
        (mul_pos (by linarith) (by linarith))
  have hwa : 0 < a.x1 - a.x0 := by linarith
  have hha : 0 < a.y1 - a.y0 := by linarith
  apply intersects_of_center (by rw [hden]; exact hd)
  rw [C45_axis_aligned a ⟨by linarith, by linarith⟩]
  have c1 : (center (Box.ofAABB a) (Box.ofAABB b)).1 = a.x0 + (a.x1 - a.x0) *
      (((b.x0 - a.x0) * (b.y1 - b.y0) + (a.y0 - b.y0) * (b.x1 - b.x0)) /
      ((a.x1 - a.x0) * (b.y1 - b.y0) - (a.y1 - a.y0) * (b.x1 - b.x0))) := by
    unfold center
    rw [hden]
    simp only [Box.ofAABB]
    rw [div_eq_iff hpos.ne', add_mul, mul_assoc, div_mul_cancel₀ _ hpos.ne']
    ring
  have c2 : (center (Box.ofAABB a) (Box.ofAABB b)).2 = a.y0 + (a.y1 - a.y0) *
      (((b.x0 - a.x0) * (b.y1 - b.y0) + (a.y0 - b.y0) * (b.x1 - b.x0)) /
      ((a.x1 - a.x0) * (b.y1 - b.y0) - (a.y1 - a.y0) * (b.x1 - b.x0))) := by
    unfold center
    rw [hden]
    simp only [Box.ofAABB]
    rw [div_eq_iff hpos.ne', add_mul, mul_assoc, div_mul_cancel₀ _ hpos.ne']
    ring
  rw [c1, c2]
  have hl0 : 0 < ((b.x0 - a.x0) * (b.y1 - b.y0) + (a.y0 - b.y0) * (b.x1 - b.x0)) /
      ((a.x1 - a.x0) * (b.y1 - b.y0) - (a.y1 - a.y0) * (b.x1 - b.x0)) := div_pos hn hpos
  have hl1 : ((b.x0 - a.x0) * (b.y1 - b.y0) + (a.y0 - b.y0) * (b.x1 - b.x0)) /
      ((a.x1 - a.x0) * (b.y1 - b.y0) - (a.y1 - a.y0) * (b.x1 - b.x0)) < 1 := by
    rw [div_lt_one hpos]
    linarith
  refine ⟨⟨?_, ?_⟩, ?_, ?_⟩
  · have := mul_pos hwa hl0; linarith
  · have := mul_lt_mul_of_pos_left hl1 hwa; linarith
  · have := mul_pos hha hl0; linarith
  · have := mul_lt_mul_of_pos_left hl1 hha; linarith

/-- C46, what holds for axis-aligned boxes: if the interiors overlap, the upper right corners
differ and the boxes' proportions differ noticeably, then at least one of the two orders reports
the overlap. -/
theorem C46_axis_aligned (a b : AABB K) (ha : a.x0 < a.x1 ∧ a.y0 < a.y1)
    (hb : b.x0 < b.x1 ∧ b.y0 < b.y1)
    (hov : a.x0 < b.x1 ∧ b.x0 < a.x1 ∧ a.y0 < b.y1 ∧ b.y0 < a.y1)
    (hne : ¬ (a.x1 = b.x1 ∧ a.y1 = b.y1))
    (hd : 1 / 1000000000 ≤ |(a.x1 - a.x0) * (b.y1 - b.y0) - (a.y1 - a.y0) * (b.x1 - b.x0)|) :
    (Box.ofAABB a).intersects (Box.ofAABB b) = true ∨
    (Box.ofAABB b).intersects (Box.ofAABB a) = true := by
  -- a corner of `p` in `q` settles it
  have corner : ∀ {p q : AABB K} {c : Pt K}, q.x0 < q.x1 → q.y0 < q.y1 →
      (c = (p.x1, p.y1) ∨ c = (p.x1, p.y0) ∨ c = (p.x0, p.y0) ∨ c = (p.x0, p.y1)) →
      ((q.x0 ≤ c.1 ∧ c.1 < q.x1) ∧ q.y0 ≤ c.2 ∧ c.2 < q.y1) →
      (Box.ofAABB p).intersects (Box.ofAABB q) = true ∧
      (Box.ofAABB q).intersects (Box.ofAABB p) = true := by
    intro p q c hq1 hq2 hc hin
    exact intersects_of_corner_left hc ((C45_axis_aligned q ⟨hq1.le, hq2.le⟩ c).2 hin)
  -- the case where `q` starts further right and `p` starts further up
  have main : ∀ p q : AABB K, p.x0 < p.x1 → p.y0 < p.y1 → q.x0 < q.x1 → q.y0 < q.y1 →
      p.x0 < q.x1 → q.x0 < p.x1 → p.y0 < q.y1 → q.y0 < p.y1 → ¬ (p.x1 = q.x1 ∧ p.y1 = q.y1) →
      1 / 1000000000 ≤ |(p.x1 - p.x0) * (q.y1 - q.y0) - (p.y1 - p.y0) * (q.x1 - q.x0)| →
      p.x0 < q.x0 → q.y0 < p.y0 →
      (Box.ofAABB p).intersects (Box.ofAABB q) = true := by
    intro p q p1 p2 q1 q2 o1 o2 o3 o4 hn hd hx hy
    by_cases h1 : p.x1 < q.x1
    · exact (corner (p := p) (q := q) (c := (p.x1, p.y0)) q1 q2 (by simp)
        ⟨⟨o2.le, h1⟩, hy.le, o3⟩).1
    by_cases h2 : q.y1 < p.y1
    · exact (corner (p := q) (q := p) (c := (q.x0, q.y1)) p1 p2 (by simp)
        ⟨⟨hx.le, o2⟩, o3.le, h2⟩).2
    push Not at h1 h2
    apply cross_case p q hx q1 h1 hy p2 h2 hn
    rwa [abs_of_nonneg] at hd
    rw [sub_nonneg, mul_comm (p.y1 - p.y0)]
    exact mul_le_mul (by linarith) (by linarith) (by linarith) (by linarith)
  obtain ⟨a1, a2⟩ := ha
  obtain ⟨b1, b2⟩ := hb
  obtain ⟨o1, o2, o3, o4⟩ := hov
  by_cases hx : a.x0 < b.x0
  · by_cases hy : b.y0 < a.y0
    · exact Or.inl (main a b a1 a2 b1 b2 o1 o2 o3 o4 hne hd hx hy)
    · push Not at hy
      exact Or.inl (corner (p := b) (q := a) (c := (b.x0, b.y0)) a1 a2 (by simp)
        ⟨⟨hx.le, o2⟩, hy, o4⟩).2
  · push Not at hx
    by_cases hy : a.y0 < b.y0
    · by_cases hxe : a.x0 = b.x0
      · exact Or.inl (corner (p := b) (q := a) (c := (b.x0, b.y0)) a1 a2 (by simp)
          ⟨⟨hxe.le, o2⟩, hy.le, o4⟩).2
      · have hx' : b.x0 < a.x0 := lt_of_le_of_ne hx fun h => hxe h.symm
        refine Or.inr (main b a b1 b2 a1 a2 o2 o1 o4 o3 (fun h => hne ⟨h.1.symm, h.2.symm⟩) ?_ hx' hy)
        rw [abs_sub_comm] at hd
        have e : (b.x1 - b.x0) * (a.y1 - a.y0) - (b.y1 - b.y0) * (a.x1 - a.x0) =
          (a.y1 - a.y0) * (b.x1 - b.x0) - (a.x1 - a.x0) * (b.y1 - b.y0) := by ring
        rw [e]
        exact hd
    · push Not at hy
      exact Or.inl (corner (p := a) (q := b) (c := (a.x0, a.y0)) b1 b2 (by simp)
        ⟨⟨hx, o1⟩, hy, o3⟩).1

example := C46_corner exUnit exFlat (by decide +kernel)
example := C46_axis_aligned (⟨-3, -1, 3, 1⟩ : AABB ℚ) ⟨-1, -3, 1, 3⟩ (by norm_num) (by norm_num)
  (by norm_num) (by norm_num) (by norm_num [abs_of_pos])

/-! ## C60 -/

/-- C60: the field of view of a new sensor is latitude [-90, 90), longitude [0, 180): no position
with western longitude is in it. -/
theorem C60_default_fov (p : Pt K) :
    (defaultFov : Box K).within p = true ↔ (-90 ≤ p.1 ∧ p.1 < 90) ∧ 0 ≤ p.2 ∧ p.2 < 180 :=
  C45_axis_aligned ⟨-90, 0, 90, 180⟩ (by norm_num) p

/-- C60, refuted claim: New York is not in the field of view of a new sensor. -/
theorem C60_refuted : (defaultFov : Box ℚ).within (407 / 10, -74) = false := by decide +kernel

/-! ## C61 -/

/-- `b` contains the box `b'`. -/
def Contains (b b' : AABB K) : Prop := ∀ p, b'.within p = true → b.within p = true

/-- C61: the box of a mixture contains the box of every component and every component's
position. -/
theorem C61_mixture_box (comps : List (Pt K × AABB K)) (b : AABB K) (h : mixBox comps = some b) :
    ∀ g ∈ comps, Contains b g.2 ∧ (∀ c0, comps.head? = some c0 → b.within c0.1 = true) ∧
      (g.2.within g.1 = true → b.within g.1 = true) := by
  have key : ∀ (l : List (Pt K × AABB K)) (b : AABB K) (q : Pt K),
      (b.within q = true ∨ ∃ g ∈ l, g.2.within q = true) → (l.foldl (fun b h =>
        (⟨min b.x0 h.2.x0, min b.y0 h.2.y0, max b.x1 h.2.x1, max b.y1 h.2.y1⟩ : AABB K)) b).within q
        = true := by
    intro l
    induction l with
    | nil =>
      rintro b q (h | ⟨g, hg, _⟩)
      · exact h
      · cases hg
    | cons a l ih =>
      intro b q hq
      apply ih
      rcases hq with hq | ⟨g, hg, hq⟩
      · left
        rw [AABB.within_iff] at hq ⊢
        exact ⟨(min_le_left _ _).trans hq.1, hq.2.1.trans (le_max_left _ _),
          (min_le_left _ _).trans hq.2.2.1, hq.2.2.2.trans (le_max_left _ _)⟩
      · rcases List.mem_cons.1 hg with rfl | hg
        · left
          rw [AABB.within_iff] at hq ⊢
          exact ⟨(min_le_right _ _).trans hq.1, hq.2.1.trans (le_max_right _ _),
            (min_le_right _ _).trans hq.2.2.1, hq.2.2.2.trans (le_max_right _ _)⟩
        · exact Or.inr ⟨g, hg, hq⟩
  cases comps with
  | nil => cases h
  | cons c0 l =>
    cases h
    intro g hg
    refine ⟨fun p hp => key _ _ p (Or.inr ⟨g, hg, hp⟩), ?_, fun hp => key _ _ _ (Or.inr ⟨g, hg, hp⟩)⟩
    intro c1 hc1
    cases hc1
    apply key
    left
    rw [AABB.within_iff]
    exact ⟨le_refl _, le_refl _, le_refl _, le_refl _⟩

/-- C61, the box is the smallest one: a box that contains every component's box and the position of
the first component contains the box of the mixture. -/
theorem C61_smallest (comps : List (Pt K × AABB K)) (b : AABB K) (h : mixBox comps = some b)
    (b' : AABB K) (hb : ∀ g ∈ comps, b'.x0 ≤ g.2.x0 ∧ b'.y0 ≤ g.2.y0 ∧ g.2.x1 ≤ b'.x1 ∧ g.2.y1 ≤ b'.y1)
    (h0 : ∀ c0, comps.head? = some c0 → b'.within c0.1 = true) : Contains b' b := by
  have key : ∀ (l : List (Pt K × AABB K)) (a : AABB K),
      (b'.x0 ≤ a.x0 ∧ b'.y0 ≤ a.y0 ∧ a.x1 ≤ b'.x1 ∧ a.y1 ≤ b'.y1) →
      (∀ g ∈ l, b'.x0 ≤ g.2.x0 ∧ b'.y0 ≤ g.2.y0 ∧ g.2.x1 ≤ b'.x1 ∧ g.2.y1 ≤ b'.y1) →
      Contains b' (l.foldl (fun b h => (⟨min b.x0 h.2.x0, min b.y0 h.2.y0, max b.x1 h.2.x1,
        max b.y1 h.2.y1⟩ : AABB K)) a) := by
    intro l
    induction l with
    | nil =>
      intro a ha _ p hp
      rw [List.foldl_nil, AABB.within_iff] at hp
      rw [AABB.within_iff]
      exact ⟨ha.1.trans hp.1, hp.2.1.trans ha.2.2.1, ha.2.1.trans hp.2.2.1, hp.2.2.2.trans ha.2.2.2⟩
    | cons g l ih =>
      intro a ha hl
      rw [List.foldl_cons]
      have hg := hl g (List.mem_cons_self ..)
      exact ih _ ⟨le_min ha.1 hg.1, le_min ha.2.1 hg.2.1, max_le ha.2.2.1 hg.2.2.1,
        max_le ha.2.2.2 hg.2.2.2⟩ fun q hq => hl q (List.mem_cons_of_mem _ hq)
  cases comps with
  | nil => cases h
  | cons c0 l =>
    cases h
    have hc := (AABB.within_iff _ _).1 (h0 c0 rfl)
    exact key _ _ ⟨hc.1, hc.2.2.1, hc.2.1, hc.2.2.2⟩ hb

example : Contains (⟨-1, -1, 4, 6⟩ : AABB ℚ) ⟨-1, -1, 4, 5⟩ :=
  C61_smallest [(((0 : ℚ), 0), ⟨-1, -1, 1, 1⟩), ((3, 3), ⟨2, 2, 4, 5⟩)] _ (by decide +kernel) _
    (by decide +kernel) (by decide +kernel)
example := C61_mixture_box [(((0 : ℚ), 0), ⟨-1, -1, 1, 1⟩), ((3, 3), ⟨2, 2, 4, 5⟩)] _ rfl

/-! ## C62 -/

theorem overlap_range (ins : Pt K → Bool) (l : List (Pt K)) : 0 ≤ overlap ins l ∧ overlap ins l ≤ 1 := by
  have key : ∀ (l : List (Pt K)) (n : K), n ≤ l.foldl (fun n p => if ins p then n + 1 else n) n ∧
      l.foldl (fun n p => if ins p then n + 1 else n) n ≤ n + l.length := by
    intro l
    induction l with
    | nil => intro n; simp
    | cons a l ih =>
      intro n
      rw [List.foldl_cons, List.length_cons]
      push_cast
      split
      · have := ih (n + 1)
        exact ⟨by linarith [this.1], by linarith [this.2]⟩
      · have := ih n
        exact ⟨this.1, by linarith [this.2]⟩
  have := key l 0
  unfold overlap
  refine ⟨div_nonneg this.1 (Nat.cast_nonneg _), ?_⟩
  apply div_le_one_of_le₀ _ (Nat.cast_nonneg _)
  linarith [this.2]

theorem mixOverlap_range (ins : Pt K → Bool) (comps : List (K × List (Pt K)))
    (hw : ∀ g ∈ comps, 0 ≤ g.1) :
    0 ≤ mixOverlap ins comps ∧ mixOverlap ins comps ≤ (comps.map Prod.fst).sum := by
  have key : ∀ (l : List (K × List (Pt K))) (r : K), (∀ g ∈ l, 0 ≤ g.1) →
      r ≤ l.foldl (fun r g => r + g.1 * overlap ins g.2) r ∧
      l.foldl (fun r g => r + g.1 * overlap ins g.2) r ≤ r + (l.map Prod.fst).sum := by
    intro l
    induction l with
    | nil => intro r _; simp
    | cons a l ih =>
      intro r hl
      have ha := hl a (List.mem_cons_self ..)
      have ho := overlap_range ins a.2
      have := ih (r + a.1 * overlap ins a.2) fun g hg => hl g (List.mem_cons_of_mem _ hg)
      have h1 := mul_nonneg ha ho.1
      have h2 := mul_le_mul_of_nonneg_left ho.2 ha
      rw [List.foldl_cons, List.map_cons, List.sum_cons]
      exact ⟨by linarith [this.1], by linarith [this.2]⟩
  have := key comps 0 hw
  unfold mixOverlap
  exact ⟨this.1, by linarith [this.2]⟩

/-- C62: whatever the samples drawn, the detection probability of a density whose weights are not
negative and sum to at most 1 lies between 0 and the sensor's `pD`. -/
theorem C62_pD_range (pD : K) (h0 : 0 ≤ pD) (ins : Pt K → Bool) (comps : List (K × List (Pt K)))
    (hw : ∀ g ∈ comps, 0 ≤ g.1) (hs : (comps.map Prod.fst).sum ≤ 1) :
    0 ≤ sensorPD pD ins comps ∧ sensorPD pD ins comps ≤ pD := by
  have := mixOverlap_range ins comps hw
  unfold sensorPD
  refine ⟨mul_nonneg h0 this.1, ?_⟩
  have := mul_le_mul_of_nonneg_left (this.2.trans hs) h0
  rwa [mul_one] at this

/-- C62, exactly: the detection probability is the sensor's `pD` times the weighted share of the
samples in the field of view. -/
theorem C62_pD_exact (pD : K) (ins : Pt K → Bool) (comps : List (K × List (Pt K))) :
    sensorPD pD ins comps =
      pD * (comps.map fun g => g.1 * (((g.2.filter ins).length : K) / g.2.length)).sum := by
  have cnt : ∀ (l : List (Pt K)) (n : K),
      l.foldl (fun n p => if ins p then n + 1 else n) n = n + ((l.filter ins).length : K) := by
    intro l
    induction l with
    | nil => intro n; simp
    | cons a l ih =>
      intro n
      rw [List.foldl_cons, ih]
      cases h : ins a <;> simp [h]
      ring
  have fold : ∀ (l : List (K × List (Pt K))) (r : K),
      l.foldl (fun r g => r + g.1 * overlap ins g.2) r =
        r + (l.map fun g => g.1 * (((g.2.filter ins).length : K) / g.2.length)).sum := by
    intro l
    induction l with
    | nil => intro r; simp
    | cons a l ih =>
      intro r
      rw [List.foldl_cons, ih, List.map_cons, List.sum_cons, overlap, cnt, zero_add]
      ring
  unfold sensorPD mixOverlap
  rw [fold, zero_add]

/-- C62, the two extremes: all samples, or no sample, in the field of view. -/
theorem C62_pD_extremes (pD : K) (ins : Pt K → Bool) (comps : List (K × List (Pt K)))
    (hn : ∀ g ∈ comps, g.2 ≠ []) :
    ((∀ g ∈ comps, ∀ p ∈ g.2, ins p = true) →
      sensorPD pD ins comps = pD * (comps.map Prod.fst).sum) ∧
    ((∀ g ∈ comps, ∀ p ∈ g.2, ins p = false) → sensorPD pD ins comps = 0) := by
  have all : ∀ (l : List (Pt K)) (n : K), (∀ p ∈ l, ins p = true) →
      l.foldl (fun n p => if ins p then n + 1 else n) n = n + l.length := by
    intro l
    induction l with
    | nil => intro n _; simp
    | cons a l ih =>
      intro n h
      rw [List.foldl_cons, if_pos (h a (List.mem_cons_self ..)),
        ih _ fun p hp => h p (List.mem_cons_of_mem _ hp), List.length_cons]
      push_cast
      ring
  have none' : ∀ (l : List (Pt K)) (n : K), (∀ p ∈ l, ins p = false) →
      l.foldl (fun n p => if ins p then n + 1 else n) n = n := by
    intro l
    induction l with
    | nil => intro n _; rfl
    | cons a l ih =>
      intro n h
      rw [List.foldl_cons, h a (List.mem_cons_self ..)]
      exact ih n fun p hp => h p (List.mem_cons_of_mem _ hp)
  have fold : ∀ (l : List (K × List (Pt K))) (r v : K), (∀ g ∈ l, overlap ins g.2 = v) →
      l.foldl (fun r g => r + g.1 * overlap ins g.2) r = r + (l.map Prod.fst).sum * v := by
    intro l
    induction l with
    | nil => intro r v _; simp
    | cons a l ih =>
      intro r v h
      rw [List.foldl_cons, ih _ v fun g hg => h g (List.mem_cons_of_mem _ hg),
        h a (List.mem_cons_self ..), List.map_cons, List.sum_cons]
      ring
  constructor
  · intro h
    have := fold comps 0 1 fun g hg => by
      have hl : (0 : K) < g.2.length := by exact_mod_cast List.length_pos_iff.2 (hn g hg)
      unfold overlap
      rw [all g.2 0 (h g hg), zero_add, div_self hl.ne']
    unfold sensorPD mixOverlap
    rw [this, zero_add, mul_one]
  · intro h
    have := fold comps 0 0 fun g hg => by
      unfold overlap
      rw [none' g.2 0 (h g hg), zero_div]
    unfold sensorPD mixOverlap
    rw [this, zero_add, mul_zero, mul_zero]

/-- Two components; half of the first one's samples are in view. -/
def exSamples : List (ℚ × List (Pt ℚ)) := [(1 / 2, [(0, 1), (0, -1)]), (1 / 3, [(0, 5)])]

example := C62_pD_range (9 / 10 : ℚ) (by norm_num) (defaultFov : Box ℚ).within exSamples
  (by decide +kernel) (by decide +kernel)
example := C62_pD_exact (9 / 10 : ℚ) (defaultFov : Box ℚ).within exSamples
example := C62_pD_extremes (9 / 10 : ℚ) (defaultFov : Box ℚ).within exSamples (by decide)
example : sensorPD (9 / 10 : ℚ) (defaultFov : Box ℚ).within exSamples = 21 / 40 := by
  decide +kernel

end Verif.BBox
