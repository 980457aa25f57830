import Verif.BBox.Props

/-! # C46 for a box and an axis-aligned box: `BBox::intersects(const AABBox&)` -/

namespace Verif.BBox

variable {K : Type*} [Field K] [LinearOrder K] [IsStrictOrderedRing K]

theorem between {a0 a1 a2 a3 w0 w1 w2 w3 p : K} (h0 : 0 ≤ w0) (h1 : 0 ≤ w1) (h2 : 0 ≤ w2) (h3 : 0 ≤ w3)
    (hs : w0 + w1 + w2 + w3 = 1) (hp : p = w0 * a0 + w1 * a1 + w2 * a2 + w3 * a3) :
    min (min (min a0 a1) a2) a3 ≤ p ∧ p ≤ max (max (max a0 a1) a2) a3 := by
  set m := min (min (min a0 a1) a2) a3 with hm
  set M := max (max (max a0 a1) a2) a3 with hM
  have m0 : m ≤ a0 := (min_le_left _ _).trans ((min_le_left _ _).trans (min_le_left _ _))
  have m1 : m ≤ a1 := (min_le_left _ _).trans ((min_le_left _ _).trans (min_le_right _ _))
  have m2 : m ≤ a2 := (min_le_left _ _).trans (min_le_right _ _)
  have m3 : m ≤ a3 := min_le_right _ _
  have M0 : a0 ≤ M := (le_max_left _ _).trans ((le_max_left _ _).trans (le_max_left _ _))
  have M1 : a1 ≤ M := (le_max_right _ _).trans ((le_max_left _ _).trans (le_max_left _ _))
  have M2 : a2 ≤ M := (le_max_right _ _).trans (le_max_left _ _)
  have M3 : a3 ≤ M := le_max_right _ _
  rw [hp]
  constructor
  · calc m = w0 * m + w1 * m + w2 * m + w3 * m := by rw [← add_mul, ← add_mul, ← add_mul, hs, one_mul]
      _ ≤ _ := add_le_add (add_le_add (add_le_add (mul_le_mul_of_nonneg_left m0 h0)
        (mul_le_mul_of_nonneg_left m1 h1)) (mul_le_mul_of_nonneg_left m2 h2)) (mul_le_mul_of_nonneg_left m3 h3)
  · calc _ ≤ w0 * M + w1 * M + w2 * M + w3 * M :=
        add_le_add (add_le_add (add_le_add (mul_le_mul_of_nonneg_left M0 h0)
        (mul_le_mul_of_nonneg_left M1 h1)) (mul_le_mul_of_nonneg_left M2 h2)) (mul_le_mul_of_nonneg_left M3 h3)
      _ = M := by rw [← add_mul, ← add_mul, ← add_mul, hs, one_mul]

/-- The corners of `aabbox()`. -/
theorem aabbox_eq (a : Box K) : a.aabbox =
    ⟨min (min (min a.c0.1 a.c1.1) a.c2.1) a.c3.1, min (min (min a.c0.2 a.c1.2) a.c2.2) a.c3.2,
      max (max (max a.c0.1 a.c1.1) a.c2.1) a.c3.1, max (max (max a.c0.2 a.c1.2) a.c2.2) a.c3.2⟩ := by
  have h : ∀ x y z w : K, min (min (min x y) z) w ≤ max (max (max x y) z) w := fun x y z w =>
    (min_le_right _ _).trans (le_max_right _ _)
  unfold Box.aabbox AABB.mk4
  simp only [min_eq_left (h _ _ _ _), max_eq_right (h _ _ _ _)]

/-- **C46 (a box and an axis-aligned box).**  `intersects` misses nothing: it holds whenever the two have a
point in common.  It is exact as soon as the first is axis-aligned too. -/
theorem C46_aabb (a : Box K) (b : AABB K) :
    (∀ p, InHull a p → b.within p = true → a.intersectsAABB b = true) ∧
    (∀ c : AABB K, c.x0 ≤ c.x1 → c.y0 ≤ c.y1 → b.x0 ≤ b.x1 → b.y0 ≤ b.y1 →
      ((Box.ofAABB c).intersectsAABB b = true ↔ ∃ p, c.within p = true ∧ b.within p = true)) := by
  constructor
  · rintro p ⟨w0, w1, w2, w3, h0, h1, h2, h3, hs, hx, hy⟩ hb
    obtain ⟨b1, b2, b3, b4⟩ := (AABB.within_iff b p).1 hb
    obtain ⟨x1, x2⟩ := between h0 h1 h2 h3 hs hx
    obtain ⟨y1, y2⟩ := between h0 h1 h2 h3 hs hy
    unfold Box.intersectsAABB
    rw [AABB.intersects_iff, aabbox_eq]
    exact ⟨b1.trans x2, x1.trans b2, y1.trans b4, b3.trans y2⟩
  · intro c hx hy bx by'
    have e : (Box.ofAABB c).aabbox = c := by
      rw [aabbox_eq]
      simp [Box.ofAABB, hx, hy]
    unfold Box.intersectsAABB
    rw [e, C44_intersects c b ⟨hx, hy⟩ ⟨bx, by'⟩]

/-- A square standing on a corner. -/
def exTilted : Box ℚ := ⟨(0, 2), (2, 0), (0, -2), (-2, 0)⟩

/-- **C46 (a box and an axis-aligned box, refuted).**  `intersects` also holds for an axis-aligned box beside
a turned one, near none of its sides. -/
theorem C46_aabb_refuted : exTilted.intersectsAABB ⟨3 / 2, 3 / 2, 2, 2⟩ = true ∧
    ¬ ∃ p, InHull exTilted p ∧ (⟨3 / 2, 3 / 2, 2, 2⟩ : AABB ℚ).within p = true := by
  refine ⟨by decide +kernel, ?_⟩
  rintro ⟨p, ⟨w0, w1, w2, w3, h0, h1, h2, h3, hs, hx, hy⟩, hb⟩
  obtain ⟨b1, b2, b3, b4⟩ := (AABB.within_iff _ p).1 hb
  simp only [exTilted] at hx hy b1 b2 b3 b4
  linarith

example : exTilted.intersectsAABB ⟨0, 1, 5, 6⟩ = true :=
  (C46_aabb _ _).1 (0, 1) ⟨3 / 4, 0, 1 / 4, 0, by norm_num, by norm_num, by norm_num, by norm_num, by norm_num,
    by norm_num [exTilted], by norm_num [exTilted]⟩ (by decide +kernel)

end Verif.BBox
