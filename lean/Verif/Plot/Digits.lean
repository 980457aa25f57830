import Mathlib.Algebra.BigOperators.Group.List.Basic
import Mathlib.Algebra.Order.BigOperators.Group.List
import Mathlib.Data.Real.Basic
import Verif.Json.NotFinite
import Verif.Plot.LogProps

/-! # C122: how exact the drawn tracks are, and logs with numbers that are not finite -/

namespace Verif.Plot

open Verif.Json

/-- A number as `json.loads` reads it, `plots/plot_results.py:26`.  (Simplified: Python takes the double nearest
to this value.) -/
noncomputable def rdReal (t : Txt) : ℝ := (numVal t : ℝ)

/-- A finite number with the digits it is written with, `gaussian.hpp:152-154`, `target.hpp:204`. -/
abbrev FNum := {a : Num // a.2.isFinite = true}

/-- The number as text, `gaussian.hpp:152-154`, `target.hpp:204`. -/
def FNum.txt (a : FNum) : Txt := a.1.txt

/-- The value of the double. -/
noncomputable def FNum.real (a : FNum) : ℝ := (a.1.2.val : ℝ)

theorem read_err (a : FNum) : |rdReal a.txt - a.real| ≤ |a.real| / (2 * 10 ^ a.1.1) := by
  have h := (C122_read a.1 a.2).2
  have h' : ((|numVal a.txt - a.1.2.val| : ℚ) : ℝ) ≤ ((|a.1.2.val| / (2 * 10 ^ a.1.1) : ℚ) : ℝ) := by
    exact_mod_cast h
  push_cast at h'
  exact h'

/-- Six digits for the weights and at least fifteen for the entries. -/
theorem prod_err {w x : FNum} (hw : w.1.1 = 5) (hx : 14 ≤ x.1.1) :
    |rdReal w.txt * rdReal x.txt - w.real * x.real| ≤ 51 / 10 ^ 7 * |w.real * x.real| := by
  have h1 := read_err w
  have h2 : |rdReal x.txt - x.real| ≤ |x.real| / (2 * 10 ^ 14) := by
    refine (read_err x).trans ?_
    have : (10 : ℝ) ^ 14 ≤ 10 ^ x.1.1 := pow_le_pow_right₀ (by norm_num) hx
    gcongr
  rw [hw] at h1
  generalize rdReal w.txt = a at *
  generalize rdReal x.txt = b at *
  generalize w.real = u at *
  generalize x.real = v at *
  have e : a * b - u * v = (a - u) * (b - v) + (a - u) * v + u * (b - v) := by ring
  have g0 := abs_nonneg u
  have g1 := abs_nonneg v
  calc |a * b - u * v| ≤ |a - u| * |b - v| + |a - u| * |v| + |u| * |b - v| := by
        rw [e, ← abs_mul, ← abs_mul, ← abs_mul]
        exact (abs_add_le _ _).trans (add_le_add_left (abs_add_le _ _) _)
    _ ≤ |u| / (2 * 10 ^ 5) * (|v| / (2 * 10 ^ 14)) + |u| / (2 * 10 ^ 5) * |v| + |u| * (|v| / (2 * 10 ^ 14)) := by
        gcongr
    _ = (1 / (4 * 10 ^ 19) + 1 / (2 * 10 ^ 5) + 1 / (2 * 10 ^ 14)) * (|u| * |v|) := by ring
    _ ≤ 51 / 10 ^ 7 * |u * v| := by
        rw [abs_mul]
        gcongr
        norm_num

/-- Coordinate `k` of the mean of a mixture, as the tracker has it: `gm.hpp:229-236`. -/
noncomputable def coord (k : Nat) (c : List (Gauss FNum)) : ℝ :=
  (c.map fun g => g.w.real * ((g.x[k]?.bind (·[0]?)).map FNum.real).getD 0).sum

/-- The same with absolute values. -/
noncomputable def size (k : Nat) (c : List (Gauss FNum)) : ℝ :=
  (c.map fun g => |g.w.real * ((g.x[k]?.bind (·[0]?)).map FNum.real).getD 0|).sum

/-- The digits a mixture is written with: six for the weights, at least fifteen for the means, `gaussian.hpp:152-153`,
`constants.hpp:6`. -/
def Digits (c : List (Gauss FNum)) : Prop := ∀ g ∈ c, g.w.1.1 = 5 ∧ ∀ r ∈ g.x, ∀ a ∈ r, 14 ≤ a.1.1

theorem meanRow_err (k : Nat) : ∀ c : List (Gauss FNum), Digits c →
    |meanRow rdReal FNum.txt k c - coord k c| ≤ 51 / 10 ^ 7 * size k c := by
  intro c
  induction c with
  | nil => intro _; simp [meanRow, coord, size]
  | cons g c ih =>
    intro h
    have h1 := ih fun g' hg' => h g' (by simp [hg'])
    obtain ⟨hw, hx⟩ := h g (by simp)
    have h2 : |rdReal g.w.txt * (((g.x[k]?.bind (·[0]?)).map fun a => rdReal a.txt).getD 0) -
        g.w.real * ((g.x[k]?.bind (·[0]?)).map FNum.real).getD 0| ≤
        51 / 10 ^ 7 * |g.w.real * ((g.x[k]?.bind (·[0]?)).map FNum.real).getD 0| := by
      cases hr : g.x[k]? with
      | none => simp
      | some r =>
        simp only [Option.bind_some]
        cases ha : r[0]? with
        | none => simp
        | some a =>
          simp only [Option.map_some, Option.getD_some]
          exact prod_err hw (hx r (List.mem_of_getElem? hr) a (List.mem_of_getElem? ha))
    simp only [meanRow, coord, size, List.map_cons, List.sum_cons] at h1 ⊢
    rw [add_sub_add_comm, mul_add]
    exact (abs_add_le _ _).trans (add_le_add h2 h1)

/-- **C122, tracks.** A log of at most twelve lines with finite numbers is drawn, and the point drawn for a state is
the mean of its mixture to within `5.1·10⁻⁶` of the sum of the weighted coordinates' absolute values; for weights that sum
to 1 and longitudes up to 180 that is less than a thousandth of a degree.  The number at a track is the probability of
existence to within `5·10⁻⁶` of it. -/
theorem C122_tracks (log : List (Line FNum)) (h4 : ∀ l ∈ log, ∀ t ∈ l.2.2, Four t.c)
    (hd : ∀ l ∈ log, ∀ t ∈ l.2.2, Digits t.c ∧ t.r.1.1 = 5) (hlen : log.length ≤ 12) :
    ∃ F, ∀ n, F ≤ n → ∃ figs, draw n rdReal (log.map (Line.txt FNum.txt)) = some figs ∧
      figs.length = log.length ∧ ∀ (k : Nat) (l : Line FNum), log[k]? = some l → ∃ fig, figs[k]? = some fig ∧
        fig.length = l.2.2.length ∧ ∀ (j : Nat) (t : Tgt FNum), l.2.2[j]? = some t → ∃ tr, fig[j]? = some tr ∧
          tr.c = t.id ∧
          List.Forall₂ (fun pt s => |pt.1 - coord 0 s.c| ≤ 51 / 10 ^ 7 * size 0 s.c ∧
              |pt.2 - coord 1 s.c| ≤ 51 / 10 ^ 7 * size 1 s.c)
            tr.pts (((log.take (k + 1)).flatMap fun l => l.2.2).filter (·.id == t.id)) ∧
          ((l.2.2.map (·.id)).Nodup → ∃ x, tr.text = some x ∧ |x - t.r.real| ≤ |t.r.real| / (2 * 10 ^ 5)) := by
  obtain ⟨F, hF⟩ := C85_log (sh := FNum.txt) (fun a => (C122_read a.1 a.2).1) rdReal log h4 hlen
  refine ⟨F, fun n hn => ⟨_, hF n hn, by simp, fun k l hl => ?_⟩⟩
  have hk : k < log.length := (List.getElem?_eq_some_iff.1 hl).1
  refine ⟨figure rdReal FNum.txt log k, by simp [List.getElem?_map, List.getElem?_range hk], by simp [figure, hl],
    fun j t ht => ?_⟩
  refine ⟨⟨t.id, (statesOf (log.take (k + 1)) t.id).map (point rdReal FNum.txt),
      (statesOf (log.take (k + 1)) t.id).getLast?.map fun s => rdReal s.r.txt⟩, ?_, rfl, ?_, fun hnd => ?_⟩
  · rw [figure, hl]
    simp [ht]
  · rw [← statesOf_eq]
    show List.Forall₂ _ ((statesOf (log.take (k + 1)) t.id).map (point rdReal FNum.txt)) _
    rw [List.forall₂_map_left_iff, List.forall₂_same]
    intro s hs
    rw [statesOf_eq] at hs
    obtain ⟨l', hl', hs'⟩ := List.mem_flatMap.1 (List.mem_filter.1 hs).1
    have hdig := (hd l' (List.mem_of_mem_take hl') s hs').1
    exact ⟨meanRow_err 0 s.c hdig, meanRow_err 1 s.c hdig⟩
  · obtain ⟨tr, e1, _, e3, _⟩ := C85_text rdReal FNum.txt log k l hl hnd j t ht
    have e2 : tr = ⟨t.id, (statesOf (log.take (k + 1)) t.id).map (point rdReal FNum.txt),
        (statesOf (log.take (k + 1)) t.id).getLast?.map fun s => rdReal s.r.txt⟩ := by
      rw [figure, hl] at e1
      simpa [ht] using e1.symm
    rw [e2] at e3
    refine ⟨_, e3, ?_⟩
    have := read_err t.r
    rw [(hd l (List.mem_of_getElem? hl) t (List.mem_of_getElem? ht)).2] at this
    exact this

/-- **C122, refuted for states that are not finite.** If a number of any target in any line of the log is infinite or
not a number, nothing is drawn. -/
theorem C122_log_refuted {β : Type} [AddCommMonoid β] [Mul β] (n : Nat) (rd : Txt → β) (pre post : List Txt)
    (l : Line Num) (t : Tgt Num) (ht : t ∈ l.2.2) (a : Num)
    (ha : a = t.r ∨ ∃ g ∈ t.c, a = g.w ∨ (∃ r ∈ g.x, a ∈ r) ∨ ∃ r ∈ g.P, a ∈ r) (hf : a.2.isFinite = false) :
    draw n rd (pre ++ l.txt Num.txt :: post) = none := by
  refine drawLoop_bad n rd ?_ pre post 0 _
  have b1 : Bal (lit "{\"t\":" ++ l.1.txt ++ lit ",\"scan\":" ++ reportsRepr Num.txt l.2.1 ++ lit ",\"post\":") :=
    (((Bal.append (by decide) (free_out (txt_free l.1)).1).append (by decide)).append
      (bal_reports txt_free l.2.1)).append (by decide)
  have h : Has a.txt (l.txt Num.txt) := (Has.right b1 (has_tracker txt_free ht ha)).left _
  unfold loads
  split
  · rename_i v hv
    exact absurd hv (no_document hf h n v)
  · rfl

/-! ## Examples -/

/-- A target with two components of weights 1/3 and 2/3. -/
def exTwo : Tgt FNum := ⟨1, 7, .correct, ⟨(5, .fin (7 / 9)), rfl⟩,
  [⟨⟨(5, .fin (1 / 3)), rfl⟩, [[⟨(14, .fin (5839812345 / 10 ^ 8)), rfl⟩], [⟨(14, .fin (155 / 10)), rfl⟩],
      [⟨(14, .fin 0), rfl⟩], [⟨(14, .negZero), rfl⟩]], []⟩,
    ⟨⟨(5, .fin (2 / 3)), rfl⟩, [[⟨(14, .fin (584 / 10)), rfl⟩], [⟨(14, .fin (156 / 10)), rfl⟩],
      [⟨(14, .fin 0), rfl⟩], [⟨(14, .fin 1), rfl⟩]], []⟩]⟩

example : ∃ F, ∀ n, F ≤ n → ∃ figs, draw n rdReal ([(⟨(5, .fin 0), rfl⟩, [], [exTwo])].map (Line.txt FNum.txt)) =
    some figs ∧ figs.length = 1 := by
  have hx : ∀ g ∈ exTwo.c, ∃ x0 x1 x2 x3, g.x = [[x0], [x1], [x2], [x3]] := by
    intro g hg
    simp only [exTwo, List.mem_cons, List.not_mem_nil, or_false] at hg
    rcases hg with rfl | rfl <;> exact ⟨_, _, _, _, rfl⟩
  have hdig : Digits exTwo.c := by
    intro g hg
    simp only [exTwo, List.mem_cons, List.not_mem_nil, or_false] at hg
    rcases hg with rfl | rfl <;>
    · refine ⟨rfl, ?_⟩
      intro r hr a ha
      simp only [List.mem_cons, List.not_mem_nil, or_false] at hr
      rcases hr with rfl | rfl | rfl | rfl <;>
      · rw [List.mem_singleton] at ha
        subst ha
        exact le_refl _
  obtain ⟨F, hF⟩ := C122_tracks [(⟨(5, .fin 0), rfl⟩, [], [exTwo])] (by
      intro l hl t ht
      rw [List.mem_singleton] at hl
      subst hl
      rw [List.mem_singleton] at ht
      subst ht
      exact ⟨by simp [exTwo], hx⟩) (by
      intro l hl t ht
      rw [List.mem_singleton] at hl
      subst hl
      rw [List.mem_singleton] at ht
      subst ht
      exact ⟨hdig, rfl⟩) (by simp)
  exact ⟨F, fun n hn => let ⟨figs, h1, h2, _⟩ := hF n hn; ⟨figs, h1, h2⟩⟩

/-- One target whose covariance has become infinite. -/
example (n : Nat) (before : Txt) : draw n rdNat [before, Line.txt Num.txt ((5, .fin 1), [],
    [⟨1, 7, .correct, (5, .fin 1), [⟨(5, .fin 1), [], [[(14, .inf false)]]⟩]⟩])] = none :=
  C122_log_refuted n rdNat [before] [] _ _ (List.mem_singleton_self _) (14, .inf false)
    (Or.inr ⟨_, List.mem_singleton_self _, Or.inr (Or.inr ⟨_, List.mem_singleton_self _, by simp⟩)⟩) rfl

end Verif.Plot
