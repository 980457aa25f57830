import Verif.GMF.Round
import Verif.GM.Props

/-! # Property C82: the weights of a mixture in `double` arithmetic -/

namespace Verif.GMF

open Verif.Lap Verif.LapF Verif.GM Verif.HypF XR
open Verif.RTreeF (isDouble_zero isDouble_one)

variable {X : Type}

theorem eps_bounds : 1 / 10 ^ 8 * (1 - 1 / 2 ^ 53) ≤ eps ∧ eps ≤ 1 / 10 ^ 8 * (1 + 1 / 2 ^ 53) := by
  decide +kernel

theorem eps_pos : 0 < eps := lt_of_lt_of_le (by norm_num) eps_bounds.1

/-- Sums of numbers that are close to each other. -/
theorem sum_close {α : Type} (l : List α) (f h : α → ℚ) {E t : ℚ}
    (H : ∀ g ∈ l, |f g - h g| ≤ h g * E + t) :
    |(l.map f).sum - (l.map h).sum| ≤ (l.map h).sum * E + l.length * t := by
  induction l with
  | nil => simp
  | cons g l ih =>
    have h1 := abs_le.1 (H g (List.mem_cons_self ..))
    have h2 := abs_le.1 (ih fun x hx => H x (List.mem_cons_of_mem _ hx))
    simp only [List.map_cons, List.sum_cons, List.length_cons, Nat.cast_add, Nat.cast_one]
    rw [abs_le]
    constructor <;> linarith [h1.1, h1.2, h2.1, h2.2]

/-- A quotient by the rounded sum against the quotient by the exact one. -/
theorem quot_close {g a W R d : ℚ} (g0 : 0 ≤ g) (a0 : 0 < a) (W0 : 0 < W) (h1 : W ≤ a * R)
    (h2 : a ≤ W * R) (hR : R ≤ 1 + d) (hR2 : R ≤ 2) :
    |g / a - g / W| ≤ g / W * d ∧ g / a ≤ 2 * (g / W) := by
  have R0 : 0 < R := by
    by_contra hc
    have := mul_nonpos_of_nonneg_of_nonpos a0.le (not_lt.1 hc)
    linarith
  have e : g / a = g / W * (W / a) := by field_simp
  have q0 : 0 ≤ g / W := div_nonneg g0 W0.le
  have u : W / a ≤ R := (div_le_iff₀ a0).2 (by linarith)
  have l : 2 - R ≤ W / a := by
    have k1 : 1 / R ≤ W / a := by
      rw [div_le_div_iff₀ R0 a0]; linarith
    have k2 : 2 - R ≤ 1 / R := by
      rw [le_div_iff₀ R0]
      have := sq_nonneg (R - 1)
      linarith [show (2 - R) * R = 1 - (R - 1) ^ 2 by ring]
    linarith
  constructor
  · rw [e, show g / W * (W / a) - g / W = g / W * (W / a - 1) by ring, abs_mul, abs_of_nonneg q0]
    apply mul_le_mul_of_nonneg_left _ q0
    rw [abs_le]
    constructor <;> linarith
  · rw [e, mul_comm]
    exact mul_le_mul_of_nonneg_right (u.trans hR2) q0

/-- The relative error allowed for `n` components. -/
def del (n : Nat) : ℚ := (n + 1) / 2 ^ 51

theorem normalize_kept {m : Mix X ℚ} (h : eps < fsum (m.c.map Cmp.w)) :
    normalize m = ⟨m.c.map fun g => ⟨g.x, fl (g.w / fsum (m.c.map Cmp.w))⟩,
      fsum (m.c.map Cmp.w)⟩ := if_pos h

/-- The facts about the sum that all bounds follow from. -/
theorem sum_facts {ws : List ℚ} (hw : Weights ws) (hn : ws.length ≤ 2 ^ 20) (h : eps < fsum ws) :
    0 < ws.sum ∧ |fsum ws - ws.sum| ≤ ws.sum * (ws.length / 2 ^ 51) ∧
      1 / 10 ^ 8 * (1 - del ws.length) ≤ ws.sum ∧
      ∀ g ∈ ws, IsDouble (fl (g / fsum ws)) ∧ 0 ≤ fl (g / fsum ws) ∧ fl (g / fsum ws) ≤ 1 ∧
        |fl (g / fsum ws) - g / ws.sum| ≤ g / ws.sum * del ws.length + tiny := by
  obtain ⟨-, -, h1, h2, -, h3⟩ := fsum_spec hw hn
  obtain ⟨r1, r2⟩ := rho_len hn
  have a0 : 0 < fsum ws := eps_pos.trans h
  have hR := rho_pow_pos ws.length
  have hR1 := rho_pow_ge ws.length
  have W0 : 0 < ws.sum := by
    by_contra hc
    have := mul_nonpos_of_nonpos_of_nonneg (not_lt.1 hc) hR.le
    linarith
  have n0 : (0 : ℚ) ≤ ws.length / 2 ^ 51 := by positivity
  have low : ws.sum * (1 - ws.length / 2 ^ 51) ≤ fsum ws := by
    have k : 1 - (ws.length : ℚ) / 2 ^ 51 ≤ 1 / rho ^ ws.length := by
      rw [le_div_iff₀ hR]
      have := sq_nonneg (rho ^ ws.length - 1)
      have k1 : (1 - (ws.length : ℚ) / 2 ^ 51) * rho ^ ws.length ≤
          (2 - rho ^ ws.length) * rho ^ ws.length := mul_le_mul_of_nonneg_right (by linarith) hR.le
      linarith [show (2 - rho ^ ws.length) * rho ^ ws.length = 1 - (rho ^ ws.length - 1) ^ 2 by ring]
    calc ws.sum * (1 - ws.length / 2 ^ 51) ≤ ws.sum * (1 / rho ^ ws.length) :=
          mul_le_mul_of_nonneg_left k W0.le
      _ = ws.sum / rho ^ ws.length := by ring
      _ ≤ fsum ws := (div_le_iff₀ hR).2 h1
  refine ⟨W0, ?_, ?_, ?_⟩
  · rw [abs_le]
    constructor
    · linarith [show ws.sum * (1 - (ws.length : ℚ) / 2 ^ 51) =
        ws.sum - ws.sum * (ws.length / 2 ^ 51) by ring]
    · have := mul_le_mul_of_nonneg_left r1 W0.le
      linarith [show ws.sum * (1 + (ws.length : ℚ) / 2 ^ 51) =
        ws.sum + ws.sum * (ws.length / 2 ^ 51) by ring]
  · by_contra hc
    have hc := not_le.1 hc
    have k1 : eps < ws.sum * (1 + ws.length / 2 ^ 51) :=
      (h.trans_le h2).trans_le (mul_le_mul_of_nonneg_left r1 W0.le)
    have k2 : ws.sum * (1 + (ws.length : ℚ) / 2 ^ 51) ≤
        1 / 10 ^ 8 * (1 - del ws.length) * (1 + ws.length / 2 ^ 51) :=
      mul_le_mul_of_nonneg_right hc.le (by linarith)
    have k3 := eps_bounds.1
    have e : (1 - del ws.length) * (1 + (ws.length : ℚ) / 2 ^ 51) =
        1 - 1 / 2 ^ 51 - del ws.length * (ws.length / 2 ^ 51) := by unfold del; ring
    have k4 : 0 ≤ del ws.length * ((ws.length : ℚ) / 2 ^ 51) := by unfold del; positivity
    have k5 : 1 / 10 ^ 8 * (1 - del ws.length) * (1 + (ws.length : ℚ) / 2 ^ 51) ≤
        1 / 10 ^ 8 * (1 - 1 / 2 ^ 51) := by
      rw [mul_assoc, e]
      exact mul_le_mul_of_nonneg_left (by linarith) (by norm_num)
    have k6 : (1:ℚ) / 10 ^ 8 * (1 - 1 / 2 ^ 51) < 1 / 10 ^ 8 * (1 - 1 / 2 ^ 53) := by norm_num
    linarith
  · intro g hg
    have g0 := (hw g hg).2.1
    have q0 : 0 ≤ g / fsum ws := div_nonneg g0 a0.le
    have q1 : g / fsum ws ≤ 1 := (div_le_one a0).2 (h3 g hg)
    obtain ⟨u1, u2, u3, u4⟩ := fl_unit q0 q1
    obtain ⟨c1, c2⟩ := quot_close g0 a0 W0 h1 h2 r1 r2
    refine ⟨u1, u2, u3, ?_⟩
    have tri := abs_sub_le (fl (g / fsum ws)) (g / fsum ws) (g / ws.sum)
    have e : g / ws.sum * del ws.length =
        g / ws.sum * (ws.length / 2 ^ 51) + 4 * (g / ws.sum / 2 ^ 53) := by unfold del; ring
    have p0 : 0 ≤ g / ws.sum / 2 ^ 53 := div_nonneg (div_nonneg g0 W0.le) (by norm_num)
    have c3 : g / fsum ws / 2 ^ 53 ≤ 2 * (g / ws.sum / 2 ^ 53) := by
      rw [← mul_div_assoc]
      exact div_le_div_of_nonneg_right c2 (by norm_num)
    rw [e]
    linarith

/-- C82: `normalize` on weights that are finite `double`s, not negative: with `n` components of
exact total weight `W`, either the mixture is emptied, and then `W` is at most 1e-8 up to rounding;
or `W` is at least 1e-8 up to rounding, `eta` is `W` up to a relative error of `n / 2 ^ 51`, the
components stay in place, every new weight is a `double` in [0, 1] within a relative error of
`(n + 1) / 2 ^ 51` of its exact share, heavier components do not become lighter than others, and the
new weights sum to 1 up to `(n + 1) / 2 ^ 51`.  (`1 / 2 ^ 1074` is the underflow of one weight.) -/
theorem C82_normalize (m : Mix X ℚ) (hw : ∀ g ∈ m.c, IsDouble g.w ∧ 0 ≤ g.w ∧ g.w ≤ 2 ^ 500)
    (hn : m.c.length ≤ 2 ^ 20) :
    ((normalize m).c = [] ∧ (normalize m).eta = 0 ∧
      (m.c.map Cmp.w).sum ≤ 1 / 10 ^ 8 * (1 + (m.c.length + 1) / 2 ^ 51)) ∨
    (1 / 10 ^ 8 * (1 - (m.c.length + 1) / 2 ^ 51) ≤ (m.c.map Cmp.w).sum ∧
      |(normalize m).eta - (m.c.map Cmp.w).sum| ≤ (m.c.map Cmp.w).sum * (m.c.length / 2 ^ 51) ∧
      (normalize m).c.map Cmp.x = m.c.map Cmp.x ∧
      (∀ (i : Nat) (g g' : Cmp X ℚ), m.c[i]? = some g → (normalize m).c[i]? = some g' →
        IsDouble g'.w ∧ 0 ≤ g'.w ∧ g'.w ≤ 1 ∧
        |g'.w - g.w / (m.c.map Cmp.w).sum| ≤
          g.w / (m.c.map Cmp.w).sum * ((m.c.length + 1) / 2 ^ 51) + 1 / 2 ^ 1074) ∧
      (∀ (i k : Nat) (a b a' b' : Cmp X ℚ), m.c[i]? = some a → m.c[k]? = some b →
        (normalize m).c[i]? = some a' → (normalize m).c[k]? = some b' → a.w ≤ b.w →
        a'.w ≤ b'.w) ∧
      |((normalize m).c.map Cmp.w).sum - 1| ≤
        (m.c.length + 1) / 2 ^ 51 + m.c.length * (1 / 2 ^ 1074)) := by
  have hW : Weights (m.c.map Cmp.w) := by
    intro w h
    obtain ⟨g, hg, rfl⟩ := List.mem_map.1 h
    exact hw g hg
  have hN : (m.c.map Cmp.w).length ≤ 2 ^ 20 := by rwa [List.length_map]
  by_cases h : eps < fsum (m.c.map Cmp.w)
  · right
    obtain ⟨W0, f1, f2, f3⟩ := sum_facts hW hN h
    rw [List.length_map] at f1 f2 f3
    rw [normalize_kept h]
    refine ⟨f2, f1, by simp [Function.comp_def], ?_, ?_, ?_⟩
    · intro i g g' h1 h2
      simp only [List.getElem?_map, h1, Option.map_some, Option.some.injEq] at h2
      subst h2
      exact f3 g.w (List.mem_map_of_mem (List.mem_of_getElem? h1))
    · intro i k a b a' b' h1 h2 h3 h4 hab
      simp only [List.getElem?_map, h1, h2, Option.map_some, Option.some.injEq] at h3 h4
      subst h3 h4
      obtain ⟨-, -, -, -, -, s6⟩ := fsum_spec hW hN
      have a0 : 0 < fsum (m.c.map Cmp.w) := eps_pos.trans h
      have hb : ∀ g ∈ m.c, |g.w / fsum (m.c.map Cmp.w)| ≤ 2 ^ 1000 := fun g hg =>
        abs_small (div_nonneg (hw g hg).2.1 a0.le)
          ((div_le_one a0).2 (s6 _ (List.mem_map_of_mem hg)))
      exact fl_mono (hb a (List.mem_of_getElem? h1)) (hb b (List.mem_of_getElem? h2))
        (div_le_div_of_nonneg_right hab a0.le)
    · have hs := sum_close m.c (fun g => fl (g.w / fsum (m.c.map Cmp.w)))
        (fun g => g.w / (m.c.map Cmp.w).sum) (E := del m.c.length) (t := tiny)
        fun g hg => (f3 g.w (List.mem_map_of_mem hg)).2.2.2
      rw [sum_div, div_self W0.ne', one_mul] at hs
      simpa [Function.comp_def, del, tiny] using hs
  · left
    have e : normalize m = GM.clear := if_neg h
    rw [e]
    refine ⟨rfl, rfl, ?_⟩
    obtain ⟨-, s0, s1, -⟩ := fsum_spec hW hN
    obtain ⟨r1, r2⟩ := rho_len hN
    rw [List.length_map] at s1 r1 hN
    have hq : (m.c.length : ℚ) ≤ 2 ^ 20 := by exact_mod_cast hN
    have n0 : (0 : ℚ) ≤ m.c.length := Nat.cast_nonneg _
    have k := eps_bounds.2
    calc (m.c.map Cmp.w).sum ≤ fsum (m.c.map Cmp.w) * rho ^ m.c.length := s1
      _ ≤ (1 / 10 ^ 8 * (1 + 1 / 2 ^ 53)) * (1 + m.c.length / 2 ^ 51) :=
        mul_le_mul ((not_lt.1 h).trans k) r1 (rho_pow_pos _).le (by norm_num)
      _ = 1 / 10 ^ 8 * (1 + 1 / 2 ^ 53 + (1 + 1 / 2 ^ 53) * (m.c.length / 2 ^ 51)) := by ring
      _ ≤ 1 / 10 ^ 8 * (1 + (m.c.length + 1) / 2 ^ 51) := by
        apply mul_le_mul_of_nonneg_left _ (by norm_num)
        linarith

/-- The tenth part, as a `double`. -/
def tenth : ℚ := 3602879701896397 / 2 ^ 55

theorem tenth_double : IsDouble tenth := ⟨3602879701896397, -55, by norm_num [tenth], by norm_num,
  by norm_num, by norm_num⟩

/-- Ten components of weight 0.1. -/
def exTen : Mix Nat ℚ := ⟨List.replicate 10 ⟨0, tenth⟩, 0⟩

theorem exTen_ok : ∀ g ∈ exTen.c, IsDouble g.w ∧ 0 ≤ g.w ∧ g.w ≤ 2 ^ 500 := by
  intro g hg
  rw [List.eq_of_mem_replicate hg]
  exact ⟨tenth_double, by norm_num [tenth],
    (by norm_num [tenth] : tenth ≤ 1).trans (one_le_pow₀ (by norm_num))⟩

example := C82_normalize exTen exTen_ok (by simp [exTen])

/-- They are kept, and their rounded sum is not 1. -/
example : (normalize exTen).eta = 1 - 1 / 2 ^ 53 ∧ ((normalize exTen).c.map Cmp.w).sum ≠ 1 := by
  decide +kernel

/-! ## Pruning -/

/-- C82: `prune` in `double` arithmetic removes exactly the components below the limit and, beyond
`mx`, the lightest ones; the survivors are normalised and are never all lost. -/
theorem C82_prune (srt : List (Cmp X ℚ) → List (Cmp X ℚ)) (hsrt : SortOk srt) (lim : ℚ)
    (hlim : 1 / 10 ^ 7 ≤ lim) (mx : Nat) (hmx : mx ≤ 2 ^ 20) (m : Mix X ℚ)
    (hw : ∀ g ∈ m.c, IsDouble g.w ∧ 0 ≤ g.w ∧ g.w ≤ 2 ^ 500) :
    ∃ kept dropped : List (Cmp X ℚ),
      (kept ++ dropped).Perm (m.c.filter fun g => lim ≤ g.w) ∧
      kept.length = min mx (m.c.filter fun g => lim ≤ g.w).length ∧
      kept.Pairwise (fun a b => b.w ≤ a.w) ∧ (∀ a ∈ kept, ∀ b ∈ dropped, b.w ≤ a.w) ∧
      (prune srt lim mx m).c = (normalize ⟨kept, 0⟩).c ∧
      (prune srt lim mx m).c.length = kept.length ∧
      (kept ≠ [] → |((prune srt lim mx m).c.map Cmp.w).sum - 1| ≤
        (kept.length + 1) / 2 ^ 51 + kept.length * (1 / 2 ^ 1074)) := by
  have hfil : (m.c.filter fun g => ¬ g.w < lim) = m.c.filter fun g => lim ≤ g.w := by
    apply List.filter_congr
    intro g _
    simp
  obtain ⟨hp, hs⟩ := hsrt (m.c.filter fun g => lim ≤ g.w)
  have hs' := hs
  rw [← List.take_append_drop mx (srt (m.c.filter fun g => lim ≤ g.w)), List.pairwise_append] at hs'
  have hmem : ∀ g ∈ (srt (m.c.filter fun g => lim ≤ g.w)).take mx, g ∈ m.c ∧ lim ≤ g.w := by
    intro g hg
    have := List.mem_filter.1 (hp.mem_iff.1 (List.mem_of_mem_take hg))
    exact ⟨this.1, by simpa using this.2⟩
  have hlen : ((srt (m.c.filter fun g => lim ≤ g.w)).take mx).length ≤ 2 ^ 20 :=
    (List.length_take_le _ _).trans hmx
  refine ⟨(srt (m.c.filter fun g => lim ≤ g.w)).take mx,
    (srt (m.c.filter fun g => lim ≤ g.w)).drop mx, ?_, ?_, hs'.1, hs'.2.2, ?_⟩
  · rw [List.take_append_drop]; exact hp
  · rw [List.length_take, hp.length_eq]
  · unfold prune
    simp only
    rw [hfil]
    generalize (srt (m.c.filter fun g => lim ≤ g.w)).take mx = l at *
    cases l with
    | nil =>
      have : ¬ eps < fsum ([] : List ℚ) := not_lt.2 eps_pos.le
      simp [normalize, this, GM.clear]
    | cons a l =>
      rw [if_pos (by simp)]
      have hW : Weights ((a :: l).map Cmp.w) := by
        intro w h
        obtain ⟨g, hg, rfl⟩ := List.mem_map.1 h
        exact hw g (hmem g hg).1
      obtain ⟨-, -, -, -, -, s6⟩ := fsum_spec hW (by rwa [List.length_map])
      have big : eps < fsum ((a :: l).map Cmp.w) := by
        have h1 := s6 a.w (by simp)
        have h2 := (hmem a (by simp)).2
        have h3 := eps_bounds.2
        have h4 : (1:ℚ) / 10 ^ 8 * (1 + 1 / 2 ^ 53) < 1 / 10 ^ 7 := by norm_num
        linarith
      rw [normalize_kept (m := ⟨a :: l, m.eta⟩) big, normalize_kept (m := ⟨a :: l, 0⟩) big]
      refine ⟨rfl, by simp, fun _ => ?_⟩
      rcases C82_normalize (⟨a :: l, 0⟩ : Mix X ℚ) (fun g hg => hw g (hmem g hg).1) hlen with h | h
      · rw [normalize_kept (m := ⟨a :: l, 0⟩) big] at h
        simp at h
      · have := h.2.2.2.2.2
        rwa [normalize_kept (m := ⟨a :: l, 0⟩) big] at this

example := C82_prune exSort exSort_ok (1 / 20) (by norm_num) 8 (by norm_num) exTen exTen_ok

/-! ## Sampling -/

theorem blocks_spec (cols : Nat) : ∀ (c : List (Cmp X ℚ)) (col : Nat),
    col + (c.map fun g => ⌊fl (g.w * cols)⌋.toNat).sum ≤ cols →
    ∃ bl, sampleBlocks cols c col = some bl ∧
      (∀ b ∈ bl, col ≤ b.1 ∧ b.1 + b.2 ≤ cols) ∧ bl.Pairwise (fun a b => a.1 + a.2 ≤ b.1) ∧
      (bl.map Prod.snd).sum = (c.map fun g => ⌊fl (g.w * cols)⌋.toNat).sum ∧
      bl.length = c.length := by
  intro c
  induction c with
  | nil =>
    intro col h
    exact ⟨[], rfl, by simp, List.Pairwise.nil, by simp, rfl⟩
  | cons g l ih =>
    intro col h
    rw [List.map_cons, List.sum_cons] at h
    obtain ⟨bl, b1, b2, b3, b4, b5⟩ := ih (col + ⌊fl (g.w * cols)⌋.toNat) (by omega)
    refine ⟨(col, ⌊fl (g.w * cols)⌋.toNat) :: bl, ?_, ?_, ?_, ?_, by simp [b5]⟩
    · unfold sampleBlocks
      simp only
      rw [if_pos (by omega), b1]
      rfl
    · intro b hb
      rcases List.mem_cons.1 hb with rfl | hb
      · exact ⟨le_refl _, by omega⟩
      · have := b2 b hb
        omega
    · rw [List.pairwise_cons]
      exact ⟨fun b hb => (b2 b hb).1, b3⟩
    · rw [List.map_cons, List.sum_cons, List.map_cons, List.sum_cons, b4]

/-- Rounding down a list of numbers. -/
theorem floors (l : List (Cmp X ℚ)) (f : Cmp X ℚ → ℚ) (h : ∀ g ∈ l, 0 ≤ f g) :
    (((l.map fun g => ⌊f g⌋.toNat).sum : Nat) : ℚ) ≤ (l.map f).sum ∧
      (l.map f).sum ≤ ((l.map fun g => ⌊f g⌋.toNat).sum : Nat) + l.length := by
  induction l with
  | nil => simp
  | cons g l ih =>
    obtain ⟨h1, h2⟩ := ih fun x hx => h x (List.mem_cons_of_mem _ hx)
    have k1 := floor_toNat_le (h g (List.mem_cons_self ..))
    have k2 := (lt_floor_toNat (h g (List.mem_cons_self ..))).le
    simp only [List.map_cons, List.sum_cons, List.length_cons, Nat.cast_add, Nat.cast_one]
    constructor <;> linarith

theorem tiny_le : tiny ≤ 1 / 2 ^ 100 := by
  unfold tiny
  exact one_div_le_one_div_of_le (by positivity) (pow_le_pow_right₀ (by norm_num) (by norm_num))

/-- C82: sampling a mixture of `n` components with weights that are `double`s in [0, 1] and sum to 1
up to the error of `normalize`, into a buffer of `cols` columns with `cols * (n + 2) ≤ 2 ^ 50`:
the blocks stay inside the buffer, do not overlap, and at most `n` columns are left unwritten. -/
theorem C82_sample (cols : Nat) (c : List (Cmp X ℚ)) (hw : ∀ g ∈ c, 0 ≤ g.w ∧ g.w ≤ 1)
    (h1 : |(c.map Cmp.w).sum - 1| ≤ (c.length + 1) / 2 ^ 51 + c.length * (1 / 2 ^ 1074))
    (hc : cols * (c.length + 2) ≤ 2 ^ 50) :
    ∃ bl, sampleBlocks cols c 0 = some bl ∧ bl.length = c.length ∧
      (∀ b ∈ bl, b.1 + b.2 ≤ cols) ∧ bl.Pairwise (fun a b => a.1 + a.2 ≤ b.1) ∧
      (bl.map Prod.snd).sum ≤ cols ∧ cols ≤ (bl.map Prod.snd).sum + c.length := by
  have hcq : (cols : ℚ) * (c.length + 2) ≤ 2 ^ 50 := by exact_mod_cast hc
  have c0 : (0 : ℚ) ≤ cols := Nat.cast_nonneg _
  have n0 : (0 : ℚ) ≤ c.length := Nat.cast_nonneg _
  have hcols : (cols : ℚ) ≤ 2 ^ 49 := by
    have : (cols : ℚ) * 2 ≤ cols * (c.length + 2) := mul_le_mul_of_nonneg_left (by linarith) c0
    have e : (2:ℚ) ^ 50 = 2 ^ 49 * 2 := by norm_num
    linarith
  have hx : ∀ g ∈ c, 0 ≤ g.w * cols ∧ g.w * cols ≤ cols := fun g hg =>
    ⟨mul_nonneg (hw g hg).1 c0, mul_le_of_le_one_left c0 (hw g hg).2⟩
  have hb : ∀ g ∈ c, |g.w * cols| ≤ 2 ^ 1000 := fun g hg =>
    big_of_le (k := 49) (by norm_num)
      ((abs_of_nonneg (hx g hg).1).le.trans ((hx g hg).2.trans hcols))
  have hfl : ∀ g ∈ c, |fl (g.w * cols) - g.w * cols| ≤ g.w * cols * (1 / 2 ^ 53) + tiny := by
    intro g hg
    have := fl_err (hb g hg)
    rwa [abs_of_nonneg (hx g hg).1, div_eq_mul_one_div] at this
  have hf0 : ∀ g ∈ c, 0 ≤ fl (g.w * cols) := by
    intro g hg
    have := fl_mono (abs_small le_rfl zero_le_one) (hb g hg) (hx g hg).1
    rwa [fl_zero] at this
  have hs := sum_close c (fun g => fl (g.w * cols)) (fun g => g.w * cols) hfl
  have hsum : (c.map fun g => g.w * (cols : ℚ)).sum = (c.map Cmp.w).sum * cols := by
    rw [← List.sum_map_mul_right]
  rw [hsum] at hs
  obtain ⟨k1, k2⟩ := floors c _ hf0
  -- the error in columns is below one
  have key : |(c.map fun g => fl (g.w * (cols : ℚ))).sum - cols| < 1 := by
    have t0 := tiny_pos
    have e1 : (1 : ℚ) / 2 ^ 1074 = tiny := rfl
    rw [e1] at h1
    have tle := tiny_le
    have hn50 : (c.length : ℚ) * tiny ≤ 1 / 2 ^ 50 ∨ cols = 0 := by
      by_cases hz : cols = 0
      · exact Or.inr hz
      · left
        have : (1 : ℚ) ≤ cols := by exact_mod_cast Nat.one_le_iff_ne_zero.2 hz
        have hn : (c.length : ℚ) ≤ 2 ^ 50 := by
          have := mul_le_mul_of_nonneg_right this (by linarith : (0:ℚ) ≤ c.length + 2)
          linarith
        calc (c.length : ℚ) * tiny ≤ 2 ^ 50 * (1 / 2 ^ 100) := mul_le_mul hn tle t0.le (by norm_num)
          _ = 1 / 2 ^ 50 := by norm_num
    rcases hn50 with hn50 | hz
    · -- d: error of the total weight
      set S := (c.map Cmp.w).sum with hS
      set T := (c.map fun g => fl (g.w * (cols : ℚ))).sum with hT
      have hd : |S * cols - cols| ≤ ((c.length + 1) / 2 ^ 51) * cols + c.length * tiny * cols := by
        rw [show S * cols - cols = (S - 1) * cols by ring, abs_mul, abs_of_nonneg c0, ← add_mul]
        exact mul_le_mul_of_nonneg_right h1 c0
      have hd2 : ((c.length : ℚ) + 1) / 2 ^ 51 * cols + cols / 2 ^ 51 ≤ 1 / 2 := by
        rw [show ((c.length : ℚ) + 1) / 2 ^ 51 * cols + cols / 2 ^ 51 =
          cols * (c.length + 2) / 2 ^ 51 by ring, div_le_iff₀ (by norm_num)]
        linarith [show (1:ℚ) / 2 * 2 ^ 51 = 2 ^ 50 by norm_num]
      have hd4 : (c.length : ℚ) * tiny * cols ≤ 1 / 2 ^ 30 := by
        by_cases hz : (c.length : ℚ) * cols ≤ 2 ^ 50
        · calc (c.length : ℚ) * tiny * cols = c.length * cols * tiny := by ring
            _ ≤ 2 ^ 50 * (1 / 2 ^ 100) := mul_le_mul hz tle t0.le (by norm_num)
            _ ≤ 1 / 2 ^ 30 := by norm_num
        · exfalso
          apply hz
          linarith [show (cols : ℚ) * (c.length + 2) = c.length * cols + 2 * cols by ring]
      have hq : 0 ≤ (cols : ℚ) / 2 ^ 51 := by positivity
      rw [abs_le] at hs hd
      have hSc : S * cols * (1 / 2 ^ 53) ≤ cols / 2 ^ 51 := by
        have : S * cols ≤ 4 * cols := by
          by_cases hz : (cols : ℚ) = 0
          · rw [hz, mul_zero, mul_zero]
          · have : (1 : ℚ) ≤ cols := by
              exact_mod_cast Nat.one_le_iff_ne_zero.2 (by exact_mod_cast hz)
            linarith [hd.2]
        linarith
      have hn50' : (c.length : ℚ) * tiny ≤ 1 / 4 := hn50.trans (by norm_num)
      have e30 : (1:ℚ) / 2 ^ 30 < 1 / 8 := by norm_num
      rw [abs_lt]
      constructor <;> linarith [hs.1, hs.2, hd.1, hd.2]
    · subst hz
      have : (c.map fun g => fl (g.w * ((0 : Nat) : ℚ))).sum = 0 := by
        simp [fl_zero]
      rw [this]
      simp
  rw [abs_lt] at key
  have up : (c.map fun g => ⌊fl (g.w * (cols : ℚ))⌋.toNat).sum ≤ cols := by
    have : (((c.map fun g => ⌊fl (g.w * (cols : ℚ))⌋.toNat).sum : Nat) : ℚ) < (cols + 1 : Nat) := by
      push_cast at k1 ⊢
      linarith [key.2]
    have := Nat.cast_lt.1 this
    omega
  obtain ⟨bl, b1, b2, b3, b4, b5⟩ := blocks_spec cols c 0 (by omega)
  refine ⟨bl, b1, b5, fun b hb => (b2 b hb).2, b3, by omega, ?_⟩
  rw [b4]
  have : (cols : ℚ) < (((c.map fun g => ⌊fl (g.w * (cols : ℚ))⌋.toNat).sum + c.length + 1 : Nat) : ℚ) := by
    push_cast at k2 ⊢
    linarith [key.1]
  have := Nat.cast_lt.1 this
  omega

theorem exTen_kept : (normalize exTen).c.length = 10 := by decide +kernel

theorem exTen_sum : |((normalize exTen).c.map Cmp.w).sum - 1| ≤
    ((normalize exTen).c.length + 1) / 2 ^ 51 + (normalize exTen).c.length * (1 / 2 ^ 1074) := by
  rcases C82_normalize exTen exTen_ok (by simp [exTen]) with h | h
  · have := exTen_kept
    rw [h.1] at this
    cases this
  · have e : (normalize exTen).c.length = exTen.c.length := by decide +kernel
    rw [e]
    exact h.2.2.2.2.2

/-- The mixture of ten tenths, normalised, into the 1000 columns of `pos_phd`. -/
example := C82_sample 1000 (normalize exTen).c (by decide +kernel) exTen_sum (by decide +kernel)

/-! ## Joining -/

/-- The components of mixture `j` with their rounded weights `w(0, j) * w`, `gm.hpp:178`, `193`. -/
def scaled (f : Nat → ℚ) (cs : Nat → List (Cmp X ℚ)) (j : Nat) : List (Cmp X ℚ) :=
  (cs j).map fun g => ⟨g.x, fl (f j * g.w)⟩

theorem initQ_eq (f : Nat → ℚ) (cs : Nat → List (Cmp X ℚ)) (J : Nat) :
    initQ f cs J = GM.initQ (fun _ => 1) (scaled f cs) J := by
  induction J with
  | zero => rfl
  | succ J ih =>
    unfold initQ GM.initQ scaled
    rw [List.getElem?_map]
    cases h : (cs J)[0]? with
    | none => exact ih
    | some g =>
      simp only [Option.map_some, one_mul]
      rw [ih]
      rfl

theorem pushNext_eq (f : Nat → ℚ) (cs : Nat → List (Cmp X ℚ)) (e : QE ℚ) (q : List (QE ℚ)) :
    pushNext f cs e q = GM.pushNext (fun _ => 1) (scaled f cs) e q := by
  unfold pushNext GM.pushNext scaled
  rw [List.getElem?_map]
  cases h : (cs e.j)[e.n + 1]? with
  | none => rfl
  | some g => simp only [Option.map_some, one_mul]

/-- The loop of `join` in `double` arithmetic. -/
theorem joinLoop_spec {f : Nat → ℚ} {cs : Nat → List (Cmp X ℚ)}
    (hs : ∀ j, (scaled f cs j).Pairwise fun a b => b.w ≤ a.w) {T : List (Cmp X ℚ)} (lim : ℚ) :
    ∀ (k : Nat) (q : List (QE ℚ)) (ws : ℚ) (out : List (Cmp X ℚ)),
      MInv (fun _ => 1) (scaled f cs) T q out → ws = fsum (out.map Cmp.w) →
      ∃ kept dropped, joinLoop lim f cs k q ws out = some kept ∧ (kept ++ dropped).Perm T ∧
        kept.length ≤ out.length + k ∧
        kept.Pairwise (fun a b => b.w ≤ a.w) ∧ (∀ a ∈ kept, ∀ b ∈ dropped, b.w ≤ a.w) ∧
        (kept.length = out.length + k ∨ dropped = [] ∨ ∃ d ∈ dropped, (∀ b ∈ dropped, b.w ≤ d.w) ∧
          tooLight lim d.w (fl (fsum (kept.map Cmp.w) + d.w))) := by
  intro k
  induction k with
  | zero =>
    intro q ws out hi hw
    exact ⟨out, rest _ _ q, rfl, hi.perm, by omega, hi.sorted, hi.above, Or.inl (by omega)⟩
  | succ k ih =>
    intro q ws out hi hw
    unfold joinLoop
    cases hp : popMax q with
    | none =>
      have := popMax_none hp
      subst this
      exact ⟨out, [], rfl, by simpa [rest] using hi.perm, by omega, hi.sorted, by simp,
        Or.inr (Or.inl rfl)⟩
    | some v =>
      obtain ⟨e, q'⟩ := v
      obtain ⟨g, g1, g2, hi', htop⟩ := hi.step (fun _ => zero_le_one) hs hp
      simp only
      by_cases hl : tooLight lim e.w (fl (ws + e.w))
      · rw [if_pos hl]
        refine ⟨out, rest _ _ q, rfl, hi.perm, by omega, hi.sorted, hi.above, Or.inr (Or.inr ?_)⟩
        refine ⟨⟨g.x, e.w⟩, ?_, htop, by rw [← hw]; exact hl⟩
        obtain ⟨p1, _⟩ := popMax_some hp
        apply List.mem_flatMap.2
        refine ⟨e, p1.mem_iff.1 (List.mem_cons_self ..), ?_⟩
        rw [drop_eq_cons g1, List.map_cons]
        unfold scale
        rw [g2]
        exact List.mem_cons_self ..
      · rw [if_neg hl]
        obtain ⟨g0, h0, h0'⟩ : ∃ g0, (cs e.j)[e.n]? = some g0 ∧ g0.x = g.x := by
          unfold scaled at g1
          rw [List.getElem?_map] at g1
          cases h : (cs e.j)[e.n]? with
          | none => rw [h] at g1; cases g1
          | some g0 =>
            rw [h] at g1
            simp only [Option.map_some, Option.some.injEq] at g1
            exact ⟨g0, rfl, by rw [← g1]⟩
        rw [h0]
        simp only
        rw [h0', pushNext_eq]
        obtain ⟨kept, dropped, h1, h2, h3, h4, h5, h6⟩ := ih _ (fl (ws + e.w))
          (out ++ [⟨g.x, e.w⟩]) hi' (by
            rw [List.map_append, List.map_cons, List.map_nil, fsum_append, hw])
        rw [List.length_append, List.length_singleton] at h3 h6
        refine ⟨kept, dropped, h1, h2, by omega, h4, h5, ?_⟩
        rcases h6 with h6 | h6
        · exact Or.inl (by omega)
        · exact Or.inr h6

/-- C82: `join` in `double` arithmetic, for factors and weights that are `double`s in [0, 1]: it
never reads out of range; every scaled weight is the rounded product, so in [0, 1]; the kept
components are the heaviest, in descending order, at most `mx`; it stops only when `mx` are taken,
none are left, or the computed share of the heaviest one left is below the limit; the result is what
`normalize` makes of the kept ones (see `C82_normalize`). -/
theorem C82_join (srt : List (Cmp X ℚ) → List (Cmp X ℚ)) (hsrt : SortOk srt) (lim : ℚ) (mx : Nat)
    (w : List ℚ) (pdfs : List (List (Cmp X ℚ))) (hlen : w.length = pdfs.length)
    (hw : ∀ a ∈ w, 0 ≤ a ∧ a ≤ 1) (hp : ∀ l ∈ pdfs, ∀ g ∈ l, 0 ≤ g.w ∧ g.w ≤ 1) :
    ∃ (m : Mix X ℚ) (kept dropped : List (Cmp X ℚ)), join srt lim mx w pdfs = some m ∧
      (kept ++ dropped).Perm
        ((w.zip pdfs).flatMap fun y => y.2.map fun g => ⟨g.x, fl (y.1 * g.w)⟩) ∧
      (∀ y ∈ w.zip pdfs, ∀ g ∈ y.2, IsDouble (fl (y.1 * g.w)) ∧ 0 ≤ fl (y.1 * g.w) ∧
        fl (y.1 * g.w) ≤ 1 ∧
        |fl (y.1 * g.w) - y.1 * g.w| ≤ y.1 * g.w / 2 ^ 53 + 1 / 2 ^ 1074) ∧
      kept.length ≤ mx ∧ kept.Pairwise (fun a b => b.w ≤ a.w) ∧
      (∀ a ∈ kept, ∀ b ∈ dropped, b.w ≤ a.w) ∧
      (kept.length = mx ∨ dropped = [] ∨ ∃ d ∈ dropped, (∀ b ∈ dropped, b.w ≤ d.w) ∧
        fl (d.w / fl (fsum (kept.map Cmp.w) + d.w)) < lim) ∧
      m = normalize ⟨kept, 0⟩ := by
  have hf : ∀ j, 0 ≤ w.getD j 0 ∧ w.getD j 0 ≤ 1 := by
    intro j
    rw [List.getD_eq_getElem?_getD]
    cases h : w[j]? with
    | none => exact ⟨le_refl _, zero_le_one⟩
    | some a => exact hw a (List.mem_of_getElem? h)
  have hc : ∀ j, ∀ g ∈ srt (pdfs.getD j []), 0 ≤ g.w ∧ g.w ≤ 1 := by
    intro j g hg
    have hg' := (hsrt _).1.mem_iff.1 hg
    rw [List.getD_eq_getElem?_getD] at hg'
    cases h : pdfs[j]? with
    | none => rw [h] at hg'; cases hg'
    | some l =>
      rw [h] at hg'
      exact hp l (List.mem_of_getElem? h) g hg'
  have hprod : ∀ a b : ℚ, 0 ≤ a ∧ a ≤ 1 → 0 ≤ b ∧ b ≤ 1 → 0 ≤ a * b ∧ a * b ≤ 1 :=
    fun a b ha hb => ⟨mul_nonneg ha.1 hb.1, mul_le_one₀ ha.2 hb.1 hb.2⟩
  have hs : ∀ j, (scaled (fun j => w.getD j 0) (fun j => srt (pdfs.getD j [])) j).Pairwise
      fun a b => b.w ≤ a.w := by
    intro j
    unfold scaled
    rw [List.pairwise_map]
    refine ((hsrt (pdfs.getD j [])).2).imp_of_mem ?_
    intro a b ha hb hab
    have pa := hprod _ _ (hf j) (hc j a ha)
    have pb := hprod _ _ (hf j) (hc j b hb)
    exact fl_mono (abs_small pb.1 pb.2) (abs_small pa.1 pa.2)
      (mul_le_mul_of_nonneg_left hab (hf j).1)
  obtain ⟨kept, dropped, h1, h2, h3, h4, h5, h6⟩ := joinLoop_spec hs lim mx _ 0 []
    (initQ_inv (fun _ => 1) (scaled (fun j => w.getD j 0) (fun j => srt (pdfs.getD j [])))
      w.length) rfl
  refine ⟨normalize ⟨kept, 0⟩, kept, dropped, ?_, ?_, ?_, by simpa using h3, h4, h5, ?_, rfl⟩
  · unfold join
    simp only
    rw [initQ_eq, h1]
    rfl
  · refine h2.trans ?_
    unfold everything
    have hz : w.zip pdfs = (List.range w.length).map fun j => (w.getD j 0, pdfs.getD j []) := by
      apply List.ext_getElem?
      intro i
      rw [List.getElem?_map]
      by_cases hi : i < w.length
      · have hi' : i < pdfs.length := hlen ▸ hi
        simp [List.getElem?_zip_eq_some, hi, hi', List.getD_eq_getElem?_getD]
      · have hi' : ¬ i < pdfs.length := hlen ▸ hi
        simp [hi, hi', List.getElem?_eq_none]
    rw [hz, List.flatMap_map]
    apply List.Perm.flatMap_left
    intro j _
    have e : (scaled (fun j => w.getD j 0) (fun j => srt (pdfs.getD j [])) j).map (scale 1) =
        (srt (pdfs.getD j [])).map fun g => ⟨g.x, fl (w.getD j 0 * g.w)⟩ := by
      unfold scaled scale
      simp [Function.comp_def]
    rw [e]
    exact (hsrt _).1.map _
  · intro y hy g hg
    have p := hprod _ _ (hw y.1 (List.of_mem_zip hy).1) (hp y.2 (List.of_mem_zip hy).2 g hg)
    exact fl_unit p.1 p.2
  · rcases h6 with h6 | h6 | ⟨d, d1, d2, d3⟩
    · exact Or.inl (by simpa using h6)
    · exact Or.inr (Or.inl h6)
    · exact Or.inr (Or.inr ⟨d, d1, d2, d3.2⟩)

/-- Two mixtures with decimal weights, the second one not sorted, and decimal factors. -/
def exDec : List (List (Cmp Nat ℚ)) :=
  [[⟨0, fl (7 / 10)⟩, ⟨1, fl (3 / 10)⟩], [⟨2, tenth⟩, ⟨3, fl (9 / 10)⟩]]

example := C82_join exSort exSort_ok (1 / 100) 3 [fl (6 / 10), fl (4 / 10)] exDec rfl
  (by decide +kernel) (by decide +kernel)

example : ((join exSort (1 / 100) 3 [fl (6 / 10), fl (4 / 10)] exDec).map fun m =>
    m.c.map Cmp.x) = some [0, 3, 1] := by
  decide +kernel

/-! ## Resampling -/

/-- C82: with rounded numbers `PF::resample` can read past the end of the cumulative weights
(in exact arithmetic it cannot, C52): seven equal particles, whose weights are the `double` nearest to 1/7,
and the largest value of `urand()`. -/
theorem C82_resample_refuted : ∃ (r : ℚ) (ws : List ℚ), IsDouble r ∧ 0 ≤ r ∧ r < 1 ∧
    (∀ w ∈ ws, w = fl (1 / 7)) ∧ ws.length = 7 ∧ resample r ws = none := by
  refine ⟨1 - 1 / 2 ^ 53, List.replicate 7 (fl (1 / 7)), ?_, by norm_num, by norm_num,
    fun w h => List.eq_of_mem_replicate h, by simp, by decide +kernel⟩
  exact ⟨2 ^ 53 - 1, -53, by norm_num, by norm_num, by norm_num, by norm_num⟩

/-- Half of `urand()` is harmless. -/
example : resample (1 / 2) (List.replicate 7 (fl (1 / 7))) = some [0, 1, 2, 3, 4, 5, 6] := by
  decide +kernel

end Verif.GMF
