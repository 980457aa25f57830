import Verif.LapF.Basic
import Mathlib.Data.Int.Log
import Mathlib.Data.Rat.Floor
import Mathlib.Tactic.FieldSimp
import Mathlib.Tactic.NormNum.Pow

/-!
# IEEE 754 binary64

The `double` operations of the target platform (`Tuprules.tup:20`: `-march=x86-64`, no
`-ffast-math`): the exact result rounded to nearest, ties to even, with gradual underflow and
overflow to an infinity.  Signed zeros and the payload of NaN are not modelled.
-/

namespace Verif.LapF

open Verif.Lap Verif.Lap.XR

/-- Nearest integer, ties to even; the rounding of `rlapjv.h:33`, `472` in units of the last
place. -/
def rne (y : ℚ) : ℤ :=
  if y - ⌊y⌋ < 1 / 2 then ⌊y⌋
  else if 1 / 2 < y - ⌊y⌋ then ⌊y⌋ + 1
  else if ⌊y⌋ % 2 = 0 then ⌊y⌋ else ⌊y⌋ + 1

/-- Exponent of the unit in the last place: 53 significant bits, but not below `2⁻¹⁰⁷⁴`
(`rlapjv.h:10`, `double`). -/
def ulpExp (x : ℚ) : ℤ := max (Int.log 2 |x| - 52) (-1074)

/-- The `double` nearest to `x`, as computed at `rlapjv.h:33`, `472`. -/
def round64 (x : ℚ) : XR :=
  if (2 : ℚ) ^ 1024 ≤ rne (x / 2 ^ ulpExp x) * 2 ^ ulpExp x then XR.pinf
  else if rne (x / 2 ^ ulpExp x) * 2 ^ ulpExp x ≤ -(2 : ℚ) ^ 1024 then XR.ninf
  else XR.fin (rne (x / 2 ^ ulpExp x) * 2 ^ ulpExp x)

/-- The machine arithmetic of `rlapjv.h:33`, `472`. -/
def b64 : Arith := ⟨fun a b => round64 (a - b), fun a b => round64 (a + b)⟩

/-- The finite `double` values: 53-bit significand, exponent between -1074 and 971
(`rlapjv.h:10`). -/
def IsDouble (q : ℚ) : Prop :=
  ∃ z e : ℤ, q = z * 2 ^ e ∧ |z| < 2 ^ 53 ∧ -1074 ≤ e ∧ e ≤ 971

theorem IsDouble.onGrid {q : ℚ} (h : IsDouble q) : OnGrid (2 ^ 1074) q := by
  obtain ⟨z, e, rfl, _, he, _⟩ := h
  refine ⟨z * 2 ^ (e + 1074).toNat, ?_⟩
  rw [Int.cast_mul, Int.cast_pow, Int.cast_ofNat, mul_assoc, ← zpow_natCast,
    Int.toNat_of_nonneg (by omega), Nat.cast_pow, Nat.cast_ofNat, ← zpow_natCast,
    ← zpow_add₀ (by norm_num : (2:ℚ) ≠ 0)]
  rfl

theorem rne_err (y : ℚ) : |(rne y : ℚ) - y| ≤ 1 / 2 := by
  have h1 := Int.floor_le y
  have h2 := Int.lt_floor_add_one y
  unfold rne
  split
  · rw [abs_le]; constructor <;> linarith
  · split
    · push_cast; rw [abs_le]; constructor <;> linarith
    · split
      · rw [abs_le]; constructor <;> linarith
      · push_cast; rw [abs_le]; constructor <;> linarith

theorem rne_int (z : ℤ) : rne (z : ℚ) = z := by
  unfold rne
  rw [Int.floor_intCast, if_pos (by norm_num)]

theorem round64_of_lt {x r : ℚ} (hr : (rne (x / 2 ^ ulpExp x) : ℚ) * 2 ^ ulpExp x = r)
    (h : |r| < 2 ^ 1024) : round64 x = fin r := by
  rw [abs_lt] at h
  unfold round64
  rw [hr, if_neg (not_le.2 h.2), if_neg (not_le.2 h.1)]

/-- Rounding is exact if `x` is a whole number of units. -/
theorem round64_unit {x : ℚ} {z : ℤ} (hz : x = z * 2 ^ ulpExp x) (hx : |x| < 2 ^ 1024) :
    round64 x = fin x := by
  refine round64_of_lt ?_ hx
  have h2 : (2 : ℚ) ^ ulpExp x ≠ 0 := zpow_ne_zero _ (by norm_num)
  have : x / 2 ^ ulpExp x = z := by
    rw [div_eq_iff h2]; exact hz
  rw [this, rne_int]
  exact hz.symm

theorem round64_zero : round64 0 = fin 0 :=
  round64_unit (z := 0) (by simp) (by simp)

theorem pow_log_le {x : ℚ} (hx : x ≠ 0) : (2 : ℚ) ^ Int.log 2 |x| ≤ |x| := by
  have := Int.zpow_log_le_self (b := 2) (by norm_num) (abs_pos.2 hx)
  exact_mod_cast this

/-- Multiples of `2⁻ᵏ` with at most 53 significant bits are not rounded. -/
theorem round64_exact {x : ℚ} {k : Nat} (hk : k ≤ 1074) (hg : OnGrid (2 ^ k) x)
    (hx : |x| * 2 ^ k ≤ 2 ^ 53) : round64 x = fin x := by
  obtain ⟨z, hz⟩ := hg
  push_cast at hz
  have hk0 : (0:ℚ) < 2 ^ k := by positivity
  have hlt : |x| < 2 ^ 1024 := by
    have h1 : |x| ≤ |x| * 2 ^ k := le_mul_of_one_le_right (abs_nonneg _) (one_le_pow₀ (by norm_num))
    have h2 : (2:ℚ) ^ 53 < 2 ^ 1024 := pow_lt_pow_right₀ (by norm_num) (by norm_num)
    exact (h1.trans hx).trans_lt h2
  have hxz : x = z * (2:ℚ) ^ (-(k:ℤ)) := by
    rw [zpow_neg, zpow_natCast, ← hz]; field_simp
  by_cases hx0 : x = 0
  · rw [hx0]; exact round64_zero
  by_cases he : ulpExp x ≤ -(k : ℤ)
  · refine round64_unit (z := z * 2 ^ (-(k:ℤ) - ulpExp x).toNat) ?_ hlt
    push_cast
    rw [mul_assoc, ← zpow_natCast, ← zpow_add₀ (by norm_num : (2:ℚ) ≠ 0),
      Int.toNat_of_nonneg (by omega)]
    rw [show -(k:ℤ) - ulpExp x + ulpExp x = -(k:ℤ) by ring]
    exact hxz
  · -- only the largest magnitude is left
    have hlog := pow_log_le hx0
    have hu : ulpExp x = Int.log 2 |x| - 52 := by unfold ulpExp at he ⊢; omega
    have hx' : |x| ≤ (2:ℚ) ^ (53 - (k:ℤ)) := by
      rw [zpow_sub₀ (by norm_num : (2:ℚ) ≠ 0), zpow_natCast, le_div_iff₀ hk0]
      exact_mod_cast hx
    have hle : Int.log 2 |x| ≤ 53 - (k:ℤ) :=
      (zpow_le_zpow_iff_right₀ (by norm_num : (1:ℚ) < 2)).1 (hlog.trans hx')
    have hlk : Int.log 2 |x| = 53 - (k:ℤ) := by omega
    rw [hlk] at hlog
    have habs : |x| = (2:ℚ) ^ (53 - (k:ℤ)) := le_antisymm hx' hlog
    have hu1 : ulpExp x = 1 - (k:ℤ) := by omega
    have hpw : (2:ℚ) ^ (53 - (k:ℤ)) = 2 ^ 52 * 2 ^ (1 - (k:ℤ)) := by
      rw [← zpow_natCast, ← zpow_add₀ (by norm_num : (2:ℚ) ≠ 0)]
      congr 1; push_cast; ring
    rcases abs_choice x with h | h
    · refine round64_unit (z := 2 ^ 52) ?_ hlt
      rw [hu1, Int.cast_pow, Int.cast_ofNat, ← hpw, ← habs, h]
    · refine round64_unit (z := -2 ^ 52) ?_ hlt
      rw [hu1, Int.cast_neg, Int.cast_pow, Int.cast_ofNat, neg_mul, ← hpw, ← habs, h, neg_neg]

/-- The error of rounding a sum or difference of `double`s. -/
theorem round64_spec {x X : ℚ} (hg : OnGrid (2 ^ 1074) x) (hx : |x| ≤ X) (hX : X ≤ 2 ^ 1023) :
    ∃ r, round64 x = fin r ∧ |r - x| ≤ X / 2 ^ 53 ∧ OnGrid (2 ^ 1074) r := by
  have hX0 : 0 ≤ X := (abs_nonneg _).trans hx
  have hpow : (2:ℚ) ^ 1024 = 2 * 2 ^ 1023 := by rw [pow_succ, mul_comm]
  have hp0 : (0:ℚ) < 2 ^ 1023 := pow_pos (by norm_num) _
  have hlt : |x| < 2 ^ 1024 := by
    rw [hpow]
    exact (hx.trans hX).trans_lt (lt_mul_of_one_lt_left hp0 (by norm_num))
  by_cases hx0 : x = 0
  · refine ⟨0, by rw [hx0]; exact round64_zero, ?_, ⟨0, by simp⟩⟩
    rw [hx0, sub_zero, abs_zero]; positivity
  by_cases he : ulpExp x = -1074
  · -- gradual underflow: sums are exact
    obtain ⟨z, hz⟩ := hg
    refine ⟨x, round64_unit (z := z) ?_ hlt, ?_, ⟨z, hz⟩⟩
    · rw [he, ← hz]
      push_cast
      rw [mul_assoc, ← zpow_natCast, ← zpow_add₀ (by norm_num : (2:ℚ) ≠ 0)]
      norm_num
    · rw [sub_self, abs_zero]; positivity
  · have hu : ulpExp x = Int.log 2 |x| - 52 ∧ -1074 < ulpExp x := by
      unfold ulpExp at he ⊢; omega
    have hlog := pow_log_le hx0
    have hup : (0:ℚ) < 2 ^ ulpExp x := zpow_pos (by norm_num) _
    have hue : (2:ℚ) ^ ulpExp x * 2 ^ 52 ≤ X := by
      rw [← zpow_natCast, ← zpow_add₀ (by norm_num : (2:ℚ) ≠ 0), hu.1]
      push_cast
      rw [sub_add_cancel]
      exact hlog.trans hx
    have herr := rne_err (x / 2 ^ ulpExp x)
    obtain ⟨r, hr⟩ : ∃ r, r = (rne (x / 2 ^ ulpExp x) : ℚ) * 2 ^ ulpExp x := ⟨_, rfl⟩
    have hre : |r - x| ≤ X / 2 ^ 53 := by
      have h1 : r - x = ((rne (x / 2 ^ ulpExp x) : ℚ) - x / 2 ^ ulpExp x) * 2 ^ ulpExp x := by
        rw [hr, sub_mul, div_mul_cancel₀ _ hup.ne']
      rw [h1, abs_mul, abs_of_pos hup, le_div_iff₀ (by positivity)]
      have h2 := mul_le_mul_of_nonneg_right herr hup.le
      have h3 : (2:ℚ) ^ 53 = 2 * 2 ^ 52 := by norm_num
      rw [h3]
      have h4 : |(rne (x / 2 ^ ulpExp x) : ℚ) - x / 2 ^ ulpExp x| * 2 ^ ulpExp x * (2 * 2 ^ 52) ≤
          1 / 2 * 2 ^ ulpExp x * (2 * 2 ^ 52) := mul_le_mul_of_nonneg_right h2 (by positivity)
      linarith
    refine ⟨r, round64_of_lt hr.symm ?_, hre, ?_⟩
    · have h1 : X / 2 ^ 53 ≤ X / 2 := by
        apply div_le_div_of_nonneg_left hX0 (by norm_num) (by norm_num)
      rw [abs_le] at hre hx
      rw [abs_lt, hpow]
      generalize (2:ℚ) ^ 1023 = M at hX hp0 ⊢
      generalize X / 2 ^ 53 = E at hre h1
      constructor <;> linarith
    · refine ⟨rne (x / 2 ^ ulpExp x) * 2 ^ (ulpExp x + 1074).toNat, ?_⟩
      rw [hr]
      push_cast
      rw [mul_assoc, ← zpow_natCast, ← zpow_natCast, ← zpow_add₀ (by norm_num : (2:ℚ) ≠ 0),
        Int.toNat_of_nonneg (by omega)]
      rfl

/-! ## `round64` is rounding to the nearest `double`, ties to even -/

theorem rne_nearest (y : ℚ) (z : ℤ) : |(rne y : ℚ) - y| ≤ |(z : ℚ) - y| := by
  have h1 := Int.floor_le y
  have h2 := Int.lt_floor_add_one y
  rcases le_or_gt z ⌊y⌋ with hz | hz
  · have hz' : (z : ℚ) ≤ ⌊y⌋ := by exact_mod_cast hz
    have e : |(z : ℚ) - y| = y - z := by rw [abs_of_nonpos (by linarith)]; ring
    rw [e]
    unfold rne
    split
    · rw [abs_le]; constructor <;> linarith
    · split
      · push_cast; rw [abs_le]; constructor <;> linarith
      · split
        · rw [abs_le]; constructor <;> linarith
        · push_cast; rw [abs_le]; constructor <;> linarith
  · have hz' : (⌊y⌋ : ℚ) + 1 ≤ z := by exact_mod_cast hz
    have e : |(z : ℚ) - y| = z - y := abs_of_nonneg (by linarith)
    rw [e]
    unfold rne
    split
    · rw [abs_le]; constructor <;> linarith
    · split
      · push_cast; rw [abs_le]; constructor <;> linarith
      · split
        · rw [abs_le]; constructor <;> linarith
        · push_cast; rw [abs_le]; constructor <;> linarith

/-- Half way between two integers, the even one is taken. -/
theorem rne_tie (k : ℤ) : rne (k + 1 / 2) = if k % 2 = 0 then k else k + 1 := by
  have hf : ⌊(k : ℚ) + 1 / 2⌋ = k := by
    rw [Int.floor_eq_iff]; constructor <;> linarith
  unfold rne
  rw [hf, if_neg (by linarith), if_neg (by linarith)]

theorem log_lt {x : ℚ} : |x| < (2:ℚ) ^ (Int.log 2 |x| + 1) := by
  have := Int.lt_zpow_succ_log_self (b := 2) (by norm_num) |x|
  exact_mod_cast this

/-- The numerator of the rounded number has at most 53 bits, or is `2⁵³`. -/
theorem rne_bits (x : ℚ) : |rne (x / 2 ^ ulpExp x)| ≤ 2 ^ 53 := by
  have hup : (0:ℚ) < 2 ^ ulpExp x := zpow_pos (by norm_num) _
  have h1 : |x / 2 ^ ulpExp x| ≤ 2 ^ 53 := by
    rw [abs_div, abs_of_pos hup, div_le_iff₀ hup, ← zpow_natCast,
      ← zpow_add₀ (by norm_num : (2:ℚ) ≠ 0)]
    refine log_lt.le.trans (zpow_le_zpow_right₀ (by norm_num) ?_)
    unfold ulpExp
    push_cast
    omega
  rw [abs_le] at h1 ⊢
  constructor
  · have h2 := rne_nearest (x / 2 ^ ulpExp x) (-2 ^ 53)
    by_contra h3
    have h3 : (rne (x / 2 ^ ulpExp x) : ℚ) < -2 ^ 53 := by
      have := not_le.1 h3
      exact_mod_cast this
    have h4 : |(((-2 ^ 53 : ℤ)) : ℚ) - x / 2 ^ ulpExp x| = x / 2 ^ ulpExp x + 2 ^ 53 := by
      push_cast
      rw [abs_of_nonpos (by linarith)]; ring
    rw [h4, abs_of_nonpos (by linarith)] at h2
    linarith
  · have h2 := rne_nearest (x / 2 ^ ulpExp x) (2 ^ 53)
    by_contra h3
    have h3 : (2:ℚ) ^ 53 < rne (x / 2 ^ ulpExp x) := by
      have := not_le.1 h3
      exact_mod_cast this
    have h4 : |(((2 ^ 53 : ℤ)) : ℚ) - x / 2 ^ ulpExp x| = 2 ^ 53 - x / 2 ^ ulpExp x := by
      rw [Int.cast_pow, Int.cast_ofNat, abs_of_nonneg (by linarith)]
    rw [h4, abs_of_nonneg (by linarith)] at h2
    linarith

theorem rne_low {x : ℚ} (h0 : x ≠ 0) (h : -1074 < ulpExp x) :
    2 ^ 52 ≤ |rne (x / 2 ^ ulpExp x)| := by
  have hup : (0:ℚ) < 2 ^ ulpExp x := zpow_pos (by norm_num) _
  have hu : ulpExp x = Int.log 2 |x| - 52 := by unfold ulpExp at h ⊢; omega
  have h1 : 2 ^ 52 ≤ |x / 2 ^ ulpExp x| := by
    rw [abs_div, abs_of_pos hup, le_div_iff₀ hup, ← zpow_natCast,
      ← zpow_add₀ (by norm_num : (2:ℚ) ≠ 0), hu]
    refine le_trans (le_of_eq ?_) (pow_log_le h0)
    congr 1; push_cast; ring
  have h2 := rne_err (x / 2 ^ ulpExp x)
  have h3 : |x / 2 ^ ulpExp x| - |(rne (x / 2 ^ ulpExp x) : ℚ)| ≤ 1 / 2 := by
    refine (abs_sub_abs_le_abs_sub _ _).trans ?_
    rw [abs_sub_comm]; exact h2
  have h4 : ((2 ^ 52 - 1 : ℤ) : ℚ) < (|rne (x / 2 ^ ulpExp x)| : ℤ) := by
    push_cast
    linarith
  have := Int.cast_lt.1 h4
  omega

/-- The result of rounding is a `double`. -/
theorem isDouble_of_round64 {x r : ℚ} (h : round64 x = fin r) : IsDouble r := by
  have hup : (0:ℚ) < 2 ^ ulpExp x := zpow_pos (by norm_num) _
  unfold round64 at h
  by_cases h1 : (2 : ℚ) ^ 1024 ≤ rne (x / 2 ^ ulpExp x) * 2 ^ ulpExp x
  · rw [if_pos h1] at h; cases h
  by_cases h2 : rne (x / 2 ^ ulpExp x) * 2 ^ ulpExp x ≤ -(2 : ℚ) ^ 1024
  · rw [if_neg h1, if_pos h2] at h; cases h
  rw [if_neg h1, if_neg h2] at h
  have h := XR.fin.inj h
  rw [← h]
  have hbits := rne_bits x
  have hmin : -1074 ≤ ulpExp x := le_max_right _ _
  by_cases h0 : x = 0
  · refine ⟨0, 0, ?_, by norm_num, by norm_num, by norm_num⟩
    rw [h0, zero_div]
    have : rne 0 = 0 := by exact_mod_cast rne_int 0
    rw [this]; simp
  have habs : |(rne (x / 2 ^ ulpExp x) : ℚ)| * 2 ^ ulpExp x < 2 ^ (1024 : ℤ) := by
    rw [show |(rne (x / 2 ^ ulpExp x) : ℚ)| * 2 ^ ulpExp x =
      |rne (x / 2 ^ ulpExp x) * (2:ℚ) ^ ulpExp x| by rw [abs_mul, abs_of_pos hup], abs_lt]
    exact ⟨not_le.1 h2, not_le.1 h1⟩
  have hmax : ulpExp x ≤ 971 := by
    by_contra hc
    have hlow := rne_low h0 (by omega)
    have h3 : (2:ℚ) ^ (52:ℤ) * 2 ^ ulpExp x < 2 ^ (1024 : ℤ) := by
      refine lt_of_le_of_lt (mul_le_mul_of_nonneg_right ?_ hup.le) habs
      exact_mod_cast hlow
    rw [← zpow_add₀ (by norm_num : (2:ℚ) ≠ 0)] at h3
    have := (zpow_lt_zpow_iff_right₀ (by norm_num : (1:ℚ) < 2)).1 h3
    omega
  rcases lt_or_eq_of_le hbits with hb | hb
  · exact ⟨_, _, rfl, hb, hmin, hmax⟩
  · have hlt : ulpExp x < 971 := by
      have h3 : (2:ℚ) ^ (53:ℤ) * 2 ^ ulpExp x < 2 ^ (1024 : ℤ) := by
        refine lt_of_le_of_lt (mul_le_mul_of_nonneg_right ?_ hup.le) habs
        have : (2:ℤ) ^ 53 ≤ |rne (x / 2 ^ ulpExp x)| := hb.ge
        exact_mod_cast this
      rw [← zpow_add₀ (by norm_num : (2:ℚ) ≠ 0)] at h3
      have := (zpow_lt_zpow_iff_right₀ (by norm_num : (1:ℚ) < 2)).1 h3
      omega
    have e1 : (2:ℚ) ^ 53 * 2 ^ ulpExp x = 2 ^ 52 * 2 ^ (ulpExp x + 1) := by
      rw [← zpow_natCast, ← zpow_natCast, ← zpow_add₀ (by norm_num : (2:ℚ) ≠ 0),
        ← zpow_add₀ (by norm_num : (2:ℚ) ≠ 0)]
      congr 1; push_cast; ring
    rcases abs_choice (rne (x / 2 ^ ulpExp x)) with h3 | h3
    · refine ⟨2 ^ 52, ulpExp x + 1, ?_, by norm_num, by omega, by omega⟩
      rw [← h3, hb, Int.cast_pow, Int.cast_pow, Int.cast_ofNat, e1]
    · refine ⟨-2 ^ 52, ulpExp x + 1, ?_, by norm_num, by omega, by omega⟩
      have h4 : rne (x / 2 ^ ulpExp x) = -2 ^ 53 := by rw [← hb, h3, neg_neg]
      rw [h4, Int.cast_neg, Int.cast_neg, Int.cast_pow, Int.cast_pow, Int.cast_ofNat, neg_mul,
        neg_mul, e1]

/-- No `double` is nearer. -/
theorem round64_nearest {x r d : ℚ} (h : round64 x = fin r) (hd : IsDouble d) :
    |r - x| ≤ |d - x| := by
  have hup : (0:ℚ) < 2 ^ ulpExp x := zpow_pos (by norm_num) _
  have hr : r = rne (x / 2 ^ ulpExp x) * 2 ^ ulpExp x := by
    unfold round64 at h
    by_cases h1 : (2 : ℚ) ^ 1024 ≤ rne (x / 2 ^ ulpExp x) * 2 ^ ulpExp x
    · rw [if_pos h1] at h; cases h
    by_cases h2 : rne (x / 2 ^ ulpExp x) * 2 ^ ulpExp x ≤ -(2 : ℚ) ^ 1024
    · rw [if_neg h1, if_pos h2] at h; cases h
    rw [if_neg h1, if_neg h2] at h
    exact (XR.fin.inj h).symm
  have key : ∀ z : ℤ, |r - x| ≤ |z * 2 ^ ulpExp x - x| := by
    intro z
    have h1 := mul_le_mul_of_nonneg_right (rne_nearest (x / 2 ^ ulpExp x) z) hup.le
    have e : ∀ w : ℤ, |(w : ℚ) - x / 2 ^ ulpExp x| * 2 ^ ulpExp x = |w * 2 ^ ulpExp x - x| := by
      intro w
      rw [← abs_of_pos hup, ← abs_mul, abs_of_pos hup, sub_mul, div_mul_cancel₀ _ hup.ne']
    rw [e, e, ← hr] at h1
    exact h1
  by_cases h0 : x = 0
  · have : r = 0 := by
      rw [h0, round64_zero] at h
      exact (XR.fin.inj h).symm
    rw [this, h0]; simp
  obtain ⟨z, e, rfl, hz, he, _⟩ := hd
  by_cases hle : ulpExp x ≤ e
  · have := key (z * 2 ^ (e - ulpExp x).toNat)
    rw [Int.cast_mul, Int.cast_pow, Int.cast_ofNat, mul_assoc, ← zpow_natCast,
      Int.toNat_of_nonneg (by omega), ← zpow_add₀ (by norm_num : (2:ℚ) ≠ 0), sub_add_cancel] at this
    exact this
  · -- a number with a finer grid lies below the binade of `x`
    have hu : ulpExp x = Int.log 2 |x| - 52 := by unfold ulpExp at hle ⊢; omega
    have hlog := pow_log_le h0
    have hb : (2:ℚ) ^ Int.log 2 |x| = 2 ^ 52 * 2 ^ ulpExp x := by
      rw [hu, ← zpow_natCast, ← zpow_add₀ (by norm_num : (2:ℚ) ≠ 0)]
      congr 1; push_cast; ring
    have hd : |(z:ℚ) * 2 ^ e| ≤ 2 ^ Int.log 2 |x| := by
      rw [abs_mul, abs_of_pos (zpow_pos (by norm_num : (0:ℚ) < 2) e)]
      have h1 : |(z:ℚ)| ≤ 2 ^ (53:ℤ) := by exact_mod_cast hz.le
      refine (mul_le_mul_of_nonneg_right h1 (zpow_pos (by norm_num : (0:ℚ) < 2) e).le).trans ?_
      rw [← zpow_add₀ (by norm_num : (2:ℚ) ≠ 0)]
      exact zpow_le_zpow_right₀ (by norm_num) (by omega)
    have h2 : |x| - |(z:ℚ) * 2 ^ e| ≤ |(z:ℚ) * 2 ^ e - x| := by
      rw [abs_sub_comm]; exact abs_sub_abs_le_abs_sub _ _
    rcases abs_choice x with h3 | h3
    · have := key (2 ^ 52)
      rw [Int.cast_pow, Int.cast_ofNat, ← hb, abs_of_nonpos (a := 2 ^ Int.log 2 |x| - x)
        (by linarith)] at this
      linarith
    · have := key (-2 ^ 52)
      rw [Int.cast_neg, Int.cast_pow, Int.cast_ofNat, neg_mul, ← hb,
        abs_of_nonneg (a := - _ - x) (by linarith)] at this
      linarith

/-- A `double` is not changed. -/
theorem round64_double {d : ℚ} (hd : IsDouble d) (hb : |d| < 2 ^ 1023) : round64 d = fin d := by
  obtain ⟨r, h, _, _⟩ := round64_spec hd.onGrid (X := 2 ^ 1023) hb.le (le_refl _)
  have := round64_nearest h hd
  rw [sub_self, abs_zero] at this
  have := abs_nonpos_iff.1 this
  rw [h, sub_eq_zero.1 this]

/-- `0.1` and a tie: `2⁵³ + 1` is rounded to `2⁵³`, `2⁵³ + 3` to `2⁵³ + 4`; overflow and
underflow. -/
example : round64 (1 / 10) = fin (3602879701896397 / 36028797018963968) ∧
    round64 (2 ^ 53 + 1) = fin (2 ^ 53) ∧ round64 (2 ^ 53 + 3) = fin (2 ^ 53 + 4) ∧
    round64 (2 ^ 1024) = pinf ∧ round64 (-2 ^ 1024) = ninf ∧
    round64 (1 / 2 ^ 1075) = fin 0 ∧ round64 (3 / 2 ^ 1075) = fin (2 / 2 ^ 1074) := by
  decide +kernel

example : IsDouble (1 / 4) := ⟨1, -2, by norm_num, by norm_num, by norm_num, by norm_num⟩

theorem OnGrid.sub {D : Nat} {a b : ℚ} (ha : OnGrid D a) (hb : OnGrid D b) : OnGrid D (a - b) := by
  obtain ⟨x, hx⟩ := ha
  obtain ⟨y, hy⟩ := hb
  exact ⟨x - y, by rw [sub_mul, hx, hy]; push_cast; ring⟩

theorem OnGrid.add {D : Nat} {a b : ℚ} (ha : OnGrid D a) (hb : OnGrid D b) : OnGrid D (a + b) := by
  obtain ⟨x, hx⟩ := ha
  obtain ⟨y, hy⟩ := hb
  exact ⟨x + y, by rw [add_mul, hx, hy]; push_cast; ring⟩

/-- `double` numbers of magnitude at most `R ≤ 2¹⁰²²`: sums and differences have an error of at
most `R / 2⁵²`. -/
theorem rounds_b64 {R : ℚ} (h0 : 0 ≤ R) (hR : R ≤ 2 ^ 1022) :
    Rounds b64 (2 ^ 1074) R (R / 2 ^ 52) := by
  have h1 : 2 * R ≤ 2 ^ 1023 := by
    have : (2:ℚ) ^ 1023 = 2 * 2 ^ 1022 := by rw [pow_succ, mul_comm]
    rw [this]
    exact mul_le_mul_of_nonneg_left hR (by norm_num)
  have h2 : 2 * R / 2 ^ 53 = R / 2 ^ 52 := by
    have : (2:ℚ) ^ 53 = 2 * 2 ^ 52 := by norm_num
    rw [this, mul_div_mul_left _ _ (by norm_num)]
  refine ⟨by positivity, by positivity, ?_, ?_⟩
  · intro a b ha hb hA hB
    have := round64_spec (ha.sub hb) (X := 2 * R) (by
      rw [abs_le] at hA hB ⊢; constructor <;> linarith) h1
    rwa [h2] at this
  · intro a b ha hb hA hB
    have := round64_spec (ha.add hb) (X := 2 * R) (by
      rw [abs_le] at hA hB ⊢; constructor <;> linarith) h1
    rwa [h2] at this

/-- Multiples of `2⁻ᵏ` of magnitude at most `2⁵² / 2ᵏ`: sums and differences are exact. -/
theorem rounds_b64_exact {R : ℚ} {k : Nat} (hk : k ≤ 1074) (hR : R * 2 ^ k ≤ 2 ^ 52) :
    Rounds b64 (2 ^ k) R 0 := by
  have hk0 : (0:ℚ) < 2 ^ k := by positivity
  have key : ∀ x : ℚ, OnGrid (2 ^ k) x → |x| ≤ 2 * R → ∃ r, round64 x = fin r ∧ |r - x| ≤ 0 ∧
      OnGrid (2 ^ k) r := by
    intro x hg hx
    refine ⟨x, round64_exact hk hg ?_, by simp, hg⟩
    have h1 := mul_le_mul_of_nonneg_right hx hk0.le
    have : (2:ℚ) ^ 53 = 2 * 2 ^ 52 := by norm_num
    linarith
  refine ⟨by positivity, le_refl _, ?_, ?_⟩
  · intro a b ha hb hA hB
    exact key _ (ha.sub hb) (by rw [abs_le] at hA hB ⊢; constructor <;> linarith)
  · intro a b ha hb hA hB
    exact key _ (ha.add hb) (by rw [abs_le] at hA hB ⊢; constructor <;> linarith)

end Verif.LapF
