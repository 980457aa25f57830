import Verif.RTree.Spec
import Mathlib.Tactic.Linarith
import Mathlib.Tactic.Positivity
import Mathlib.Tactic.NormNum

/-! Helper lemmas: rectangles. -/

namespace Verif.RTree

variable {D : Type}

theorem Rect.Sub.refl (a : Rect) : a.Sub a := ⟨le_refl _, le_refl _, le_refl _, le_refl _⟩

theorem Rect.Sub.trans {a b c : Rect} (h : a.Sub b) (h' : b.Sub c) : a.Sub c :=
  ⟨le_trans h'.1 h.1, le_trans h'.2.1 h.2.1, le_trans h.2.2.1 h'.2.2.1, le_trans h.2.2.2 h'.2.2.2⟩

theorem combine_sub_iff (a b q : Rect) : (combine a b).Sub q ↔ a.Sub q ∧ b.Sub q := by
  simp only [combine, Rect.Sub, le_min_iff, max_le_iff]
  tauto

theorem sub_combine_left (a b : Rect) : a.Sub (combine a b) :=
  ((combine_sub_iff a b _).1 (Rect.Sub.refl _)).1

theorem sub_combine_right (a b : Rect) : b.Sub (combine a b) :=
  ((combine_sub_iff a b _).1 (Rect.Sub.refl _)).2

theorem overlap_iff (a b : Rect) : overlap a b = true ↔
    a.minx ≤ b.maxx ∧ b.minx ≤ a.maxx ∧ a.miny ≤ b.maxy ∧ b.miny ≤ a.maxy := by
  unfold overlap
  split_ifs with h1 h2
  · simp only [Bool.false_eq_true, false_iff, not_and, not_le]
    rcases h1 with h | h
    · intro h'; exact absurd h' (not_le.2 h)
    · intro _ h'; exact absurd h' (not_le.2 h)
  · simp only [Bool.false_eq_true, false_iff, not_and, not_le]
    rcases h2 with h | h
    · intro _ _ h'; exact absurd h' (not_le.2 h)
    · intro _ _ _; exact h
  · push Not at h1 h2
    simp [h1, h2]

theorem overlap_mono {a b c : Rect} (h : b.Sub c) (ho : overlap a b = true) :
    overlap a c = true := by
  rw [overlap_iff] at *
  obtain ⟨h1, h2, h3, h4⟩ := h
  obtain ⟨o1, o2, o3, o4⟩ := ho
  exact ⟨o1.trans h3, h1.trans o2, o3.trans h4, h2.trans o4⟩

theorem overlap_self {a : Rect} (h : a.Valid) : overlap a a = true := by
  rw [overlap_iff]; exact ⟨h.1, h.1, h.2, h.2⟩

theorem Valid.of_sub {a b : Rect} (h : a.Valid) (hs : a.Sub b) : b.Valid :=
  ⟨hs.1.trans (h.1.trans hs.2.2.1), hs.2.1.trans (h.2.trans hs.2.2.2)⟩

theorem vol_nonneg (a : Rect) : 0 ≤ vol a := by
  unfold vol unitSphereVolume
  have h1 := mul_self_nonneg ((a.maxx - a.minx) * (1/2))
  have h2 := mul_self_nonneg ((a.maxy - a.miny) * (1/2))
  positivity

theorem vol_mono {a b : Rect} (ha : a.Valid) (h : a.Sub b) : vol a ≤ vol b := by
  unfold vol
  obtain ⟨h1, h2, h3, h4⟩ := h
  obtain ⟨v1, v2⟩ := ha
  have hx : (a.maxx - a.minx) * (1/2) ≤ (b.maxx - b.minx) * (1/2) := by linarith
  have hy : (a.maxy - a.miny) * (1/2) ≤ (b.maxy - b.miny) * (1/2) := by linarith
  have hx0 : 0 ≤ (a.maxx - a.minx) * (1/2) := by linarith
  have hy0 : 0 ≤ (a.maxy - a.miny) * (1/2) := by linarith
  apply mul_le_mul_of_nonneg_right _ (by norm_num [unitSphereVolume])
  exact add_le_add (mul_self_le_mul_self hx0 hx) (mul_self_le_mul_self hy0 hy)

theorem foldl_combine_sub_iff (bs : List (Branch D)) (r q : Rect) :
    (bs.foldl (fun r c => combine r c.1) r).Sub q ↔ r.Sub q ∧ ∀ b ∈ bs, b.1.Sub q := by
  induction bs generalizing r with
  | nil => simp
  | cons b bs ih =>
    simp only [List.foldl_cons, ih, combine_sub_iff, List.mem_cons, forall_eq_or_imp]
    tauto

theorem nodeCover_sub_iff {bs : List (Branch D)} (h : bs ≠ []) (q : Rect) :
    (nodeCover bs).Sub q ↔ ∀ b ∈ bs, b.1.Sub q := by
  cases bs with
  | nil => exact absurd rfl h
  | cons b bs => simp [nodeCover, foldl_combine_sub_iff]

theorem sub_nodeCover {bs : List (Branch D)} {b : Branch D} (h : b ∈ bs) :
    b.1.Sub (nodeCover bs) :=
  (nodeCover_sub_iff (List.ne_nil_of_mem h) _).1 (Rect.Sub.refl _) b h

end Verif.RTree
