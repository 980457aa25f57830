import Mathlib.Data.Int.Log
import Mathlib.Data.Rat.Floor
import Mathlib.Algebra.Order.Floor.Ring
import Mathlib.Tactic.Linarith
import Mathlib.Tactic.Ring
import Mathlib.Tactic.NormNum
import Mathlib.Tactic.FieldSimp
import Mathlib.Tactic.Positivity
import Mathlib.Tactic.IntervalCases
import Verif.Json.Props

/-!
# Numbers in the text output (C122)

`operator<<` for `double` with the default flags and precision `p` is the conversion `%.pg` of C.  The
weights and the probabilities of existence are written with `p = 6`, the default of a stream; the entries of
matrices with the `FullPrecision` of Eigen (`constants.hpp:6`): 15 or 16, by version.

A double is a rational number here; not-a-number, the infinities and the negative zero are added in `Dbl`.
-/

namespace Verif.Json

/-! ## The model -/

/-- A digit, in `os << w` at `gaussian.hpp:152`. -/
def digit (n : Nat) : Char := Char.ofNat (48 + n % 10)

/-- The last `k` digits of `n`, in `os << w` at `gaussian.hpp:152`. -/
def digs : Nat → Nat → Txt
  | 0, _ => []
  | k + 1, n => digs k (n / 10) ++ [digit n]

/-- The nearest integer, of two the even one, in `os << w` at `gaussian.hpp:152`. -/
def nearest (y : ℚ) : Nat :=
  let f := ⌊y⌋₊
  if y - f < 1 / 2 then f else if 1 / 2 < y - f then f + 1 else if f % 2 = 0 then f else f + 1

/-- The `p` leading digits of a positive number as an integer and the decimal exponent of the first, rounded,
in `os << w` at `gaussian.hpp:152`. -/
def scaled (p : Nat) (q : ℚ) : Nat × Int :=
  let E := Int.log 10 q
  let m := nearest (q * 10 ^ ((p : Int) - 1 - E))
  if m = 10 ^ p then (10 ^ (p - 1), E + 1) else (m, E)

/-- Zeros at the end of a fraction are left out, in `os << w` at `gaussian.hpp:152`. -/
def strip (l : Txt) : Txt := (l.reverse.dropWhile (· == '0')).reverse

/-- The exponent: a sign and at least two digits, in `os << w` at `gaussian.hpp:152`. -/
def expTxt (e : Int) : Txt :=
  'e' :: (if e < 0 then '-' else '+') :: digs (max 2 (Nat.log 10 e.natAbs + 1)) e.natAbs

/-- Integer part, fraction (with its point, if there is any) and exponent, in `os << w` at
`gaussian.hpp:152`. -/
def numTxt (ip fp : Txt) (e : Option Int) : Txt :=
  ip ++ (if fp = [] then [] else '.' :: fp) ++ (match e with | none => [] | some e => expTxt e)

/-- A positive number, in `os << w` at `gaussian.hpp:152`: without exponent if that of the first digit is from
-4 to `p - 1`. -/
def posTxt (p : Nat) (q : ℚ) : Txt :=
  let (m, X) := scaled p q
  let D := digs p m
  if -4 ≤ X ∧ X < p then
    if 0 ≤ X then numTxt (D.take (X.toNat + 1)) (strip (D.drop (X.toNat + 1))) none
    else numTxt ['0'] (strip (List.replicate (-X - 1).toNat '0' ++ D)) none
  else numTxt (D.take 1) (strip (D.drop 1)) (some X)

/-- What a double can be, `gaussian.hpp:20`. -/
inductive Dbl
  | nan (neg : Bool)
  | inf (neg : Bool)
  | negZero
  | fin (q : ℚ)

/-- A double as `os << w` writes it, `gaussian.hpp:152`, `target.hpp:204`, with precision `p`; the entries of
`x.format(eigenformat)`, `gaussian.hpp:153-154`, are written with another `p`. -/
def Dbl.txt (p : Nat) : Dbl → Txt
  | .nan neg => (if neg then ['-'] else []) ++ lit "nan"
  | .inf neg => (if neg then ['-'] else []) ++ lit "inf"
  | .negZero => ['-', '0']
  | .fin q => if q = 0 then ['0'] else if q < 0 then '-' :: posTxt p (-q) else posTxt p q

/-! ## The value of a number as text, which is independent of how it is written -/

/-- The value of a row of digits, read with `json.loads` at `plots/plot_results.py:26`. -/
def digVal (l : Txt) : Nat := l.foldl (fun a c => 10 * a + (c.toNat - 48)) 0

/-- The exponent of a number, read with `json.loads` at `plots/plot_results.py:26`. -/
def expVal : Txt → Int
  | 'e' :: '-' :: l => -(digVal l : Int)
  | 'E' :: '-' :: l => -(digVal l : Int)
  | 'e' :: '+' :: l => digVal l
  | 'E' :: '+' :: l => digVal l
  | 'e' :: l => digVal l
  | 'E' :: l => digVal l
  | _ => 0

/-- The value of a number without sign, read with `json.loads` at `plots/plot_results.py:26`. -/
def unsignedVal (l : Txt) : ℚ :=
  let i := l.takeWhile Char.isDigit
  match l.dropWhile Char.isDigit with
  | '.' :: r =>
    (digVal (i ++ r.takeWhile Char.isDigit) : ℚ) *
      10 ^ (expVal (r.dropWhile Char.isDigit) - (r.takeWhile Char.isDigit).length)
  | r => (digVal i : ℚ) * 10 ^ expVal r

/-- The value of a number, read with `json.loads` at `plots/plot_results.py:26`.  (Python takes the
double nearest to it.) -/
def numVal : Txt → ℚ
  | '-' :: l => -unsignedVal l
  | l => unsignedVal l

/-! ## Digits -/

theorem digit_cases (n : Nat) : digit n = '0' ∨ digit n = '1' ∨ digit n = '2' ∨ digit n = '3' ∨ digit n = '4' ∨
    digit n = '5' ∨ digit n = '6' ∨ digit n = '7' ∨ digit n = '8' ∨ digit n = '9' := by
  unfold digit
  have h : n % 10 < 10 := Nat.mod_lt _ (by norm_num)
  interval_cases n % 10 <;> decide

theorem digit_isDigit (n : Nat) : (digit n).isDigit = true := by
  rcases digit_cases n with h | h | h | h | h | h | h | h | h | h <;> rw [h] <;> rfl

theorem digit_val (n : Nat) : (digit n).toNat - 48 = n % 10 := by
  unfold digit
  have h : n % 10 < 10 := Nat.mod_lt _ (by norm_num)
  interval_cases n % 10 <;> rfl

theorem digs_length (k : Nat) : ∀ n, (digs k n).length = k := by
  induction k with
  | zero => intro n; rfl
  | succ k ih => intro n; simp [digs, ih]

theorem digs_isDigit (k : Nat) : ∀ n, ∀ c ∈ digs k n, c.isDigit = true := by
  induction k with
  | zero => intro n c hc; simp [digs] at hc
  | succ k ih =>
    intro n c hc
    simp only [digs, List.mem_append, List.mem_singleton] at hc
    rcases hc with hc | rfl
    · exact ih _ c hc
    · exact digit_isDigit n

theorem digVal_snoc (l : Txt) (c : Char) : digVal (l ++ [c]) = 10 * digVal l + (c.toNat - 48) := by
  simp [digVal, List.foldl_append]

theorem digVal_digs (k : Nat) : ∀ n, digVal (digs k n) = n % 10 ^ k := by
  induction k with
  | zero => intro n; simp [digs, digVal, Nat.mod_one]
  | succ k ih =>
    intro n
    rw [digs, digVal_snoc, ih, digit_val, pow_succ, Nat.mul_comm (10 ^ k) 10, Nat.mod_mul]
    ring

theorem digVal_zeros (l : Txt) (k : Nat) : digVal (l ++ List.replicate k '0') = digVal l * 10 ^ k := by
  induction k with
  | zero => simp
  | succ k ih =>
    rw [List.replicate_succ', ← List.append_assoc, digVal_snoc, ih, pow_succ]
    simp
    ring

theorem digVal_lead (k : Nat) (l : Txt) : digVal (List.replicate k '0' ++ l) = digVal l := by
  have : List.foldl (fun a (c : Char) => 10 * a + (c.toNat - 48)) 0 (List.replicate k '0') = 0 := by
    induction k with
    | zero => rfl
    | succ k ih => rw [List.replicate_succ, List.foldl_cons]; exact ih
  simp only [digVal, List.foldl_append, this]

theorem strip_spec (l : Txt) : ∃ k, l = strip l ++ List.replicate k '0' := by
  refine ⟨(l.reverse.takeWhile (· == '0')).length, ?_⟩
  have h : l.reverse.takeWhile (· == '0') =
      List.replicate (l.reverse.takeWhile (· == '0')).length '0' := by
    refine List.eq_replicate_iff.2 ⟨rfl, fun c hc => ?_⟩
    simpa using List.mem_takeWhile_imp hc
  conv_lhs => rw [← l.reverse_reverse, ← List.takeWhile_append_dropWhile (p := (· == '0')) (l := l.reverse),
    List.reverse_append, h, List.reverse_replicate]
  rfl

theorem strip_mem {l : Txt} {c : Char} (h : c ∈ strip l) : c ∈ l := by
  obtain ⟨k, hk⟩ := strip_spec l
  rw [hk]
  exact List.mem_append_left _ h

/-- Leaving out zeros does not change the value. -/
theorem strip_val (a l : Txt) (e : Int) :
    (digVal (a ++ strip l) : ℚ) * 10 ^ (e - (strip l).length) = digVal (a ++ l) * 10 ^ (e - l.length) := by
  obtain ⟨k, hk⟩ := strip_spec l
  have h2 : l.length = (strip l).length + k := by
    conv_lhs => rw [hk]
    simp
  have h3 : digVal (a ++ l) = digVal (a ++ strip l) * 10 ^ k := by
    conv_lhs => rw [hk, ← List.append_assoc, digVal_zeros]
  rw [h2, h3]
  push_cast
  rw [mul_assoc, ← zpow_natCast (10 : ℚ) k, ← zpow_add₀ (by norm_num)]
  congr 2
  ring

/-! ## The grammar -/

theorem takeWhile_stop {a b : Txt} (ha : ∀ c ∈ a, c.isDigit = true) (hb : ∀ c ∈ b.head?, c.isDigit = false) :
    (a ++ b).takeWhile Char.isDigit = a ∧ (a ++ b).dropWhile Char.isDigit = b := by
  rw [List.takeWhile_append_of_pos ha, List.dropWhile_append_of_pos ha]
  cases b with
  | nil => simp
  | cons d r => simp [hb d (by simp)]

theorem expTxt_spec (e : Int) : isExp (expTxt e) = true ∧ expVal (expTxt e) = e ∧
    ∀ c ∈ (expTxt e).head?, c.isDigit = false ∧ c ≠ '.' := by
  have hd := digs_isDigit (max 2 (Nat.log 10 e.natAbs + 1)) e.natAbs
  have hv : digVal (digs (max 2 (Nat.log 10 e.natAbs + 1)) e.natAbs) = e.natAbs := by
    rw [digVal_digs, Nat.mod_eq_of_lt]
    refine lt_of_lt_of_le (Nat.lt_pow_succ_log_self (b := 10) (by norm_num) _) ?_
    exact Nat.pow_le_pow_right (by norm_num) (le_max_right _ _)
  have hne : (digs (max 2 (Nat.log 10 e.natAbs + 1)) e.natAbs).isEmpty = false := by
    rw [List.isEmpty_eq_false_iff, ← List.length_pos_iff, digs_length]
    omega
  refine ⟨?_, ?_, ?_⟩
  · have h2 : ((if e < 0 then '-' else '+') == '+' || (if e < 0 then '-' else '+') == '-') = true := by
      split <;> rfl
    simp only [expTxt, isExp, beq_self_eq_true, Bool.true_or, if_true, h2, hne, Bool.not_false, Bool.true_and]
    exact List.all_eq_true.2 hd
  · unfold expTxt
    split
    · rw [expVal, hv]; omega
    · rw [expVal, hv]; omega
  · intro c hc
    simp only [expTxt, List.head?_cons, Option.mem_def, Option.some.injEq] at hc
    subst hc
    decide

/-- What is written is a number of the grammar, and this is its value. -/
theorem numTxt_spec (ip fp : Txt) (e : Option Int) (hi : ∀ c ∈ ip, c.isDigit = true)
    (hf : ∀ c ∈ fp, c.isDigit = true) (hl : ip = ['0'] ∨ ∃ c l, ip = c :: l ∧ c ≠ '0') :
    isUnsigned (numTxt ip fp e) = true ∧
      unsignedVal (numTxt ip fp e) = (digVal (ip ++ fp) : ℚ) * 10 ^ (e.getD 0 - fp.length) := by
  set x : Txt := match e with | none => [] | some e => expTxt e with hx
  have hxs : isExp x = true ∧ expVal x = e.getD 0 ∧ ∀ c ∈ x.head?, c.isDigit = false ∧ c ≠ '.' := by
    cases e with
    | none => exact ⟨rfl, rfl, by simp [hx]⟩
    | some e => exact expTxt_spec e
  have htail : isFrac ((if fp = [] then [] else '.' :: fp) ++ x) = true ∧
      ∀ c ∈ ((if fp = [] then [] else '.' :: fp) ++ x).head?, c.isDigit = false := by
    by_cases h : fp = []
    · rw [if_pos h, List.nil_append]
      refine ⟨?_, fun c hc => (hxs.2.2 c hc).1⟩
      cases hx' : x with
      | nil => rfl
      | cons d r =>
        rw [isFrac, if_neg (by simpa using (hxs.2.2 d (by rw [hx']; rfl)).2), ← hx']
        exact hxs.1
    · rw [if_neg h]
      obtain ⟨h1, h2⟩ := takeWhile_stop hf fun c hc => (hxs.2.2 c hc).1
      refine ⟨?_, ?_⟩
      · rw [List.cons_append, isFrac, if_pos (by rfl), h1, h2, hxs.1]
        simp [h]
      · intro c hc
        simp only [List.cons_append, List.head?_cons, Option.mem_def, Option.some.injEq] at hc
        subst hc
        rfl
  have hn : numTxt ip fp e = ip ++ ((if fp = [] then [] else '.' :: fp) ++ x) := by
    unfold numTxt
    rw [List.append_assoc]
  obtain ⟨h1, h2⟩ := takeWhile_stop hi htail.2
  refine ⟨?_, ?_⟩
  · unfold isUnsigned
    rw [hn, h1, h2]
    rcases hl with rfl | ⟨c, l, rfl, hc⟩
    · simp [htail.1]
    · simp [htail.1, hc]
  · unfold unsignedVal
    rw [hn, h1, h2]
    by_cases h : fp = []
    · subst h
      simp only [if_true, List.nil_append, List.append_nil, List.length_nil, Nat.cast_zero, sub_zero]
      have key : ∀ y : Txt, (∀ c ∈ y.head?, c ≠ '.') → (match y with
          | '.' :: r => (digVal (ip ++ r.takeWhile Char.isDigit) : ℚ) *
              10 ^ (expVal (r.dropWhile Char.isDigit) - (r.takeWhile Char.isDigit).length)
          | r => (digVal ip : ℚ) * 10 ^ expVal r) = (digVal ip : ℚ) * 10 ^ expVal y := by
        intro y hy
        split
        · exact absurd rfl (hy '.' rfl)
        · rfl
      rw [← hxs.2.1]
      exact key x fun c hc => (hxs.2.2 c hc).2
    · obtain ⟨h1, h2⟩ := takeWhile_stop hf fun c hc => (hxs.2.2 c hc).1
      simp only [if_neg h, List.cons_append, h1, h2, hxs.2.1]

/-! ## Rounding -/

theorem nearest_err {y : ℚ} (hy : 0 ≤ y) : |(nearest y : ℚ) - y| ≤ 1 / 2 := by
  have h1 := Nat.floor_le hy
  have h2 := Nat.lt_floor_add_one y
  unfold nearest
  rw [abs_le]
  dsimp only
  split_ifs <;> push_cast <;> constructor <;> linarith

theorem scaled_spec {p : Nat} (hp : 1 ≤ p) {q : ℚ} (hq : 0 < q) :
    10 ^ (p - 1) ≤ (scaled p q).1 ∧ (scaled p q).1 < 10 ^ p ∧
    |((scaled p q).1 : ℚ) * 10 ^ ((scaled p q).2 + 1 - p) - q| ≤ q / (2 * 10 ^ (p - 1)) := by
  obtain ⟨k, rfl⟩ : ∃ k, p = k + 1 := ⟨p - 1, by omega⟩
  set E := Int.log 10 q with hE
  have l1 : (10 : ℚ) ^ E ≤ q := by
    simpa using Int.zpow_log_le_self (b := 10) (by norm_num) hq
  have l2 : q < (10 : ℚ) ^ (E + 1) := by
    simpa using Int.lt_zpow_succ_log_self (b := 10) (by norm_num) q
  have hk : ((k + 1 : Nat) : Int) - 1 - E = k - E := by push_cast; ring
  set y := q * 10 ^ (((k + 1 : Nat) : Int) - 1 - E) with hy
  have t0 : (0 : ℚ) < 10 ^ ((k : Int) - E) := zpow_pos (by norm_num) _
  have y1 : (10 : ℚ) ^ k ≤ y := by
    rw [hy, hk]
    calc (10 : ℚ) ^ k = 10 ^ E * 10 ^ ((k : Int) - E) := by
          rw [← zpow_add₀ (by norm_num), ← zpow_natCast]; congr 1; ring
      _ ≤ _ := mul_le_mul_of_nonneg_right l1 t0.le
  have y2 : y < 10 ^ (k + 1) := by
    rw [hy, hk]
    calc _ < (10 : ℚ) ^ (E + 1) * 10 ^ ((k : Int) - E) := mul_lt_mul_of_pos_right l2 t0
      _ = _ := by rw [← zpow_add₀ (by norm_num), ← zpow_natCast]; congr 1; push_cast; ring
  have y0 : 0 ≤ y := le_trans (by positivity) y1
  have he := abs_le.1 (nearest_err y0)
  have m1 : 10 ^ k ≤ nearest y := by
    by_contra h
    have h : nearest y + 1 ≤ 10 ^ k := by omega
    have h' : (nearest y : ℚ) + 1 ≤ 10 ^ k := by exact_mod_cast h
    linarith [he.1]
  have m2 : nearest y ≤ 10 ^ (k + 1) := by
    by_contra h
    have h : 10 ^ (k + 1) + 1 ≤ nearest y := by omega
    have h' : (10 : ℚ) ^ (k + 1) + 1 ≤ nearest y := by exact_mod_cast h
    linarith [he.2]
  have back : q = y * 10 ^ (E - k) := by
    rw [hy, hk, mul_assoc, ← zpow_add₀ (by norm_num)]
    simp
  have herr : |(nearest y : ℚ) * 10 ^ (E - k) - q| ≤ q / (2 * 10 ^ k) := by
    have s0 : (0 : ℚ) < 10 ^ (E - k) := zpow_pos (by norm_num) _
    have : (nearest y : ℚ) * 10 ^ (E - k) - q = ((nearest y : ℚ) - y) * 10 ^ (E - k) := by
      conv_lhs => rw [back]
      ring
    rw [this, abs_mul, abs_of_pos s0, le_div_iff₀ (by positivity)]
    calc |(nearest y : ℚ) - y| * 10 ^ (E - k) * (2 * 10 ^ k)
        ≤ 1 / 2 * 10 ^ (E - k) * (2 * 10 ^ k) := by
          gcongr
          exact nearest_err y0
      _ = 10 ^ k * 10 ^ (E - k) := by ring
      _ ≤ y * 10 ^ (E - k) := by gcongr
      _ = q := back.symm
  unfold scaled
  simp only [← hE, ← hy, Nat.add_sub_cancel]
  by_cases h : nearest y = 10 ^ (k + 1)
  · rw [if_pos h]
    refine ⟨le_refl _, Nat.pow_lt_pow_right (by norm_num) (by omega), ?_⟩
    rw [h] at herr
    convert herr using 3
    push_cast
    rw [← zpow_natCast (10 : ℚ) k, ← zpow_natCast (10 : ℚ) (k + 1), ← zpow_add₀ (by norm_num),
      ← zpow_add₀ (by norm_num)]
    congr 1
    push_cast
    ring
  · rw [if_neg h]
    refine ⟨m1, lt_of_le_of_ne m2 h, ?_⟩
    have e : E + 1 - ((k + 1 : Nat) : Int) = E - k := by push_cast; ring
    rw [e]
    exact herr

/-! ## The property -/

theorem digs_lead {k m : Nat} (h : 10 ^ k ≤ m) (h2 : m < 10 ^ (k + 1)) :
    ∃ c l, digs (k + 1) m = c :: l ∧ c ≠ '0' := by
  induction k generalizing m with
  | zero =>
    refine ⟨digit m, [], rfl, ?_⟩
    intro hc
    have := digit_val m
    rw [hc] at this
    simp at this h h2
    omega
  | succ k ih =>
    obtain ⟨c, l, h3, h4⟩ := ih (m := m / 10)
      (by rw [Nat.le_div_iff_mul_le (by norm_num)]; rw [pow_succ] at h; exact h)
      (by rw [Nat.div_lt_iff_lt_mul (by norm_num)]; rw [pow_succ] at h2; exact h2)
    refine ⟨c, l ++ [digit m], ?_, h4⟩
    rw [digs, h3]
    rfl

theorem posTxt_spec {p : Nat} (hp : 1 ≤ p) {q : ℚ} (hq : 0 < q) :
    isUnsigned (posTxt p q) = true ∧
      unsignedVal (posTxt p q) = ((scaled p q).1 : ℚ) * 10 ^ ((scaled p q).2 + 1 - p) := by
  obtain ⟨h1, h2, _⟩ := scaled_spec hp hq
  obtain ⟨k, rfl⟩ : ∃ k, p = k + 1 := ⟨p - 1, by omega⟩
  unfold posTxt
  generalize scaled (k + 1) q = r at h1 h2 ⊢
  obtain ⟨m, X⟩ := r
  simp only [Nat.add_sub_cancel] at h1 h2 ⊢
  obtain ⟨c, l, hD, hc⟩ := digs_lead h1 h2
  have hd := digs_isDigit (k + 1) m
  have hv : digVal (digs (k + 1) m) = m := by rw [digVal_digs, Nat.mod_eq_of_lt h2]
  have hlen := digs_length (k + 1) m
  set D := digs (k + 1) m with hDd
  have split : ∀ (n : Nat) (e : Option Int), e.getD 0 - (D.drop (n + 1)).length = X + 1 - (k + 1 : Nat) →
      isUnsigned (numTxt (D.take (n + 1)) (strip (D.drop (n + 1))) e) = true ∧
      unsignedVal (numTxt (D.take (n + 1)) (strip (D.drop (n + 1))) e) =
        (m : ℚ) * 10 ^ (X + 1 - (k + 1 : Nat)) := by
    intro n e he
    obtain ⟨g1, g2⟩ := numTxt_spec (D.take (n + 1)) (strip (D.drop (n + 1))) e
      (fun c hc => hd c (List.mem_of_mem_take hc))
      (fun c hc => hd c (List.mem_of_mem_drop (strip_mem hc)))
      (Or.inr ⟨c, l.take n, by rw [hD]; rfl, hc⟩)
    refine ⟨g1, ?_⟩
    rw [g2, strip_val, List.take_append_drop, hv, he]
  split_ifs with ha hb
  · refine split X.toNat none ?_
    simp only [Option.getD_none, List.length_drop, hlen]
    have := Int.toNat_of_nonneg hb
    omega
  · obtain ⟨g1, g2⟩ := numTxt_spec ['0'] (strip (List.replicate (-X - 1).toNat '0' ++ D)) none
      (by simp) (fun c hc => by
        rcases List.mem_append.1 (strip_mem hc) with h | h
        · rw [List.eq_of_mem_replicate h]; rfl
        · exact hd c h) (Or.inl rfl)
    refine ⟨g1, ?_⟩
    rw [g2, strip_val]
    have h0 : digVal (['0'] ++ (List.replicate (-X - 1).toNat '0' ++ D)) = m := by
      have := digVal_lead ((-X - 1).toNat + 1) D
      rw [List.replicate_succ] at this
      rw [← hv, ← this]
      rfl
    rw [h0]
    congr 2
    simp only [Option.getD_none, List.length_append, List.length_replicate, hlen]
    have := Int.toNat_of_nonneg (show 0 ≤ -X - 1 by omega)
    push_cast
    omega
  · refine split 0 (some X) ?_
    simp only [Option.getD_some, List.length_drop, hlen]
    push_cast
    omega

theorem isNum_of_unsigned {l : Txt} (h : isUnsigned l = true) : isNum l = true ∧ numVal l = unsignedVal l := by
  have h0 : ∀ r, l ≠ '-' :: r := by
    rintro r rfl
    simp [isUnsigned] at h
  unfold isNum numVal
  constructor
  · split
    · rename_i r
      exact absurd rfl (h0 r)
    · exact h
  · split
    · rename_i r
      exact absurd rfl (h0 r)
    · rfl

/-- **C122.** A finite double, written with any precision `p`, is a number of the JSON grammar, and its value
differs from the double by at most half a unit in the `p`-th digit, `1 / (2·10^(p-1))` of it. -/
theorem C122_number {p : Nat} (hp : 1 ≤ p) (q : ℚ) :
    isNum ((Dbl.fin q).txt p) = true ∧ |numVal ((Dbl.fin q).txt p) - q| ≤ |q| / (2 * 10 ^ (p - 1)) := by
  rw [Dbl.txt]
  split_ifs with h0 h1
  · subst h0
    refine ⟨by decide, ?_⟩
    have : numVal ['0'] = 0 := by decide +kernel
    simp [this]
  · have hq : 0 < -q := by linarith
    obtain ⟨g1, g2⟩ := posTxt_spec hp hq
    obtain ⟨_, _, h3⟩ := scaled_spec hp hq
    refine ⟨g1, ?_⟩
    rw [numVal, g2, abs_of_neg h1]
    rw [abs_le] at h3 ⊢
    constructor <;> linarith [h3.1, h3.2]
  · have hq : 0 < q := lt_of_le_of_ne (not_lt.1 h1) (Ne.symm h0)
    obtain ⟨g1, g2⟩ := posTxt_spec hp hq
    obtain ⟨_, _, h3⟩ := scaled_spec hp hq
    obtain ⟨g3, g4⟩ := isNum_of_unsigned g1
    refine ⟨g3, ?_⟩
    rw [g4, g2, abs_of_pos hq]
    exact h3

/-- C122: a number of at most `p` digits is written exactly. -/
theorem C122_exact {p : Nat} (m : Nat) (hm : m < 10 ^ p) (z : Int) (neg : Bool) :
    numVal ((Dbl.fin ((if neg then -1 else 1) * (m * 10 ^ z))).txt p) = (if neg then -1 else 1) * (m * 10 ^ z) := by
  rcases Nat.eq_zero_or_pos m with rfl | hm0
  · have : numVal ['0'] = 0 := by decide +kernel
    simp [Dbl.txt, this]
  have hp : 1 ≤ p := by
    by_contra h
    have : p = 0 := by omega
    subst this
    simp at hm
    omega
  have hz : (0 : ℚ) < 10 ^ z := zpow_pos (by norm_num) z
  have hq : (0 : ℚ) < m * 10 ^ z := mul_pos (by exact_mod_cast hm0) hz
  have key : unsignedVal (posTxt p (m * 10 ^ z)) = m * 10 ^ z := by
    rw [(posTxt_spec hp hq).2]
    set q : ℚ := m * 10 ^ z with hqd
    set E := Int.log 10 q with hE
    have l1 : (10 : ℚ) ^ E ≤ q := by simpa using Int.zpow_log_le_self (b := 10) (by norm_num) hq
    have hlt : q < 10 ^ ((p : Int) + z) := by
      rw [zpow_add₀ (by norm_num), hqd, zpow_natCast]
      exact mul_lt_mul_of_pos_right (by exact_mod_cast hm) hz
    have hEp : E < p + z := (zpow_lt_zpow_iff_right₀ (by norm_num : (1 : ℚ) < 10)).1 (lt_of_le_of_lt l1 hlt)
    obtain ⟨k, hk⟩ : ∃ k : Nat, (p : Int) - 1 - E + z = k := ⟨((p : Int) - 1 - E + z).toNat, by omega⟩
    have hy : q * 10 ^ ((p : Int) - 1 - E) = ((m * 10 ^ k : Nat) : ℚ) := by
      rw [hqd, mul_assoc, ← zpow_add₀ (by norm_num), add_comm, hk]
      push_cast
      rw [zpow_natCast]
    have hn : nearest (((m * 10 ^ k : Nat) : ℚ)) = m * 10 ^ k := by
      unfold nearest
      simp only [Nat.floor_natCast, sub_self]
      rw [if_pos (by norm_num)]
    have hback : ((m * 10 ^ k : Nat) : ℚ) * 10 ^ (E + 1 - p) = q := by
      rw [← hy, mul_assoc, ← zpow_add₀ (by norm_num), show (p : Int) - 1 - E + (E + 1 - p) = 0 by ring]
      simp
    unfold scaled
    simp only [← hE, hy, hn]
    split
    · rename_i h
      rw [← hback, h]
      push_cast
      obtain ⟨j, rfl⟩ : ∃ j, p = j + 1 := ⟨p - 1, by omega⟩
      rw [Nat.add_sub_cancel, ← zpow_natCast, ← zpow_natCast, ← zpow_add₀ (by norm_num), ← zpow_add₀ (by norm_num)]
      congr 1
      push_cast
      ring
    · exact hback
  cases neg with
  | true =>
    have h1 : (-1 : ℚ) * (m * 10 ^ z) < 0 := by linarith
    simp only [if_true, Dbl.txt, h1.ne, if_false, h1]
    rw [numVal, neg_one_mul, neg_neg, key]
  | false =>
    have h1 : ¬ ((1 : ℚ) * (m * 10 ^ z) < 0) := by linarith
    have h2 : (1 : ℚ) * (m * 10 ^ z) ≠ 0 := by linarith
    simp only [Bool.false_eq_true, if_false, Dbl.txt, h1, h2]
    rw [one_mul, (isNum_of_unsigned (posTxt_spec hp hq).1).2, key]

/-- C122, refuted for the matrices: with the 15 or 16 digits of `FullPrecision` two neighbouring doubles are
written alike, so the double is not read back. -/
theorem C122_full_refuted : ∀ p, 1 ≤ p → p ≤ 16 →
    (Dbl.fin (1 + 1 / 2 ^ 52)).txt p = ['1'] ∧ (Dbl.fin 1).txt p = ['1'] := by
  intro p h1 h2
  interval_cases p <;> decide +kernel

/-! ## Examples -/

example : String.ofList ((Dbl.fin (1 / 3)).txt 6) = "0.333333" := by decide +kernel
example : String.ofList ((Dbl.fin (123456789)).txt 6) = "1.23457e+08" := by decide +kernel
example : String.ofList ((Dbl.fin (-1 / 100000)).txt 6) = "-1e-05" := by decide +kernel
example : String.ofList ((Dbl.fin 100000).txt 6) = "100000" := by decide +kernel
example : String.ofList ((Dbl.fin (9999995 / 10)).txt 6) = "1e+06" := by decide +kernel
example : String.ofList ((Dbl.fin (1 / 200)).txt 6) = "0.005" := by decide +kernel
example : String.ofList ((Dbl.fin (5839812345 / 10 ^ 8)).txt 15) = "58.39812345" := by decide +kernel

/-- A third, written with six digits. -/
example : |numVal ((Dbl.fin (1 / 3)).txt 6) - 1 / 3| ≤ 1 / 600000 := by
  have := (C122_number (p := 6) (by norm_num) (1 / 3)).2
  norm_num at this ⊢
  exact this

example : numVal ((Dbl.fin (-1 * (125 * 10 ^ (-3 : Int)))).txt 6) = -1 * (125 * 10 ^ (-3 : Int)) :=
  C122_exact (p := 6) 125 (by norm_num) (-3) true

end Verif.Json
