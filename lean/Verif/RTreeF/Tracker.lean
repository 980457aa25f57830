import Verif.RTreeF.Props
import Verif.Tracker.Props

/-!
# The tracker with an index in `double` arithmetic (C78)

Every theorem of `Verif/Tracker` assumes `BoxOk`; here it is derived for `areas64`, so they all hold
for the tracker as built, with `RTree<Target*, double, 2>` (`targettree.hpp:24`).
-/

namespace Verif.RTreeF

open Verif.Lap Verif.LapF XR
open Verif.RTree (Rect)
open Verif.Tracker

variable {P R O : Type}

/-- Boxes of densities with `min ≤ max` and coordinates of size at most `2²³` do for the index in
`double` arithmetic. -/
theorem boxOk64 {sq : ℚ → ℚ} (hs : CorrectSqrt sq) {E : Env P R O} (he : E.areas = areas64 sq)
    (hv : ∀ p, (E.box p).minx ≤ (E.box p).maxx ∧ (E.box p).miny ≤ (E.box p).maxy)
    (hb : ∀ p, |(E.box p).minx| ≤ 2 ^ 23 ∧ |(E.box p).miny| ≤ 2 ^ 23 ∧ |(E.box p).maxx| ≤ 2 ^ 23 ∧
      |(E.box p).maxy| ≤ 2 ^ 23) : BoxOk E := by
  refine ⟨Bd64, by rw [he]; exact areas64_ok hs, fun p => ⟨hv p, ?_⟩⟩
  rintro q rfl
  obtain ⟨a, b, c, d⟩ := hb p
  exact ⟨(abs_le.1 a).1, (abs_le.1 b).1, (abs_le.1 c).2, (abs_le.1 d).2⟩

/-- **C78** The tracker with its index in `double` arithmetic: a history with at most 30 reports
runs to its end, and after any history that does, the index holds one entry per live target, under
its current box, and a query returns exactly the live targets whose box touches the query box. -/
theorem C78_tracker {sq : ℚ → ℚ} (hs : CorrectSqrt sq) {E : Env P R O} (he : E.areas = areas64 sq)
    (hv : ∀ p, (E.box p).minx ≤ (E.box p).maxx ∧ (E.box p).miny ≤ (E.box p).maxy)
    (hb : ∀ p, |(E.box p).minx| ≤ 2 ^ 23 ∧ |(E.box p).miny| ≤ 2 ^ 23 ∧ |(E.box p).maxx| ≤ 2 ^ 23 ∧
      |(E.box p).maxy| ≤ 2 ^ 23) (prm : Params) (calls : List (Call P R))
    (hc : ∀ c ∈ calls, CallOk E c) :
    ((∀ c ∈ calls, CallCosts c) → (calls.map Call.reports).sum ≤ 30 →
      ∃ F s, ∀ fuel, F ≤ fuel → Tracker.run E prm fuel calls (St.empty : St P) = some s) ∧
    ∀ fuel s, Tracker.run E prm fuel calls (St.empty : St P) = some s →
      Coherent E s ∧ ∀ b : Rect, b.Valid → ∃ l, query s b = some l ∧ l.Nodup ∧
        ∀ a, a ∈ l ↔ ∃ t, s.heap a = some t ∧ b.Touch (E.box t.pdf) :=
  ⟨fun hk hn => C26_defined (boxOk64 hs he hv hb) prm calls hc hk hn,
    fun fuel s e => C26_index_coherent (boxOk64 hs he hv hb) prm fuel calls hc s e⟩

/-- The example tracker with boxes kept in range, and `double` areas. -/
noncomputable def exE64 (sq : ℚ → ℚ) : Env ℚ ℚ ℚ :=
  { exE with
    box := fun p => ⟨max (-1000) (min 1000 p) - 1, 0, max (-1000) (min 1000 p) + 1, 1⟩
    areas := areas64 sq }

theorem exE64_ok (sq : ℚ → ℚ) (p : ℚ) :
    (((exE64 sq).box p).minx ≤ ((exE64 sq).box p).maxx ∧
      ((exE64 sq).box p).miny ≤ ((exE64 sq).box p).maxy) ∧
    |((exE64 sq).box p).minx| ≤ 2 ^ 23 ∧ |((exE64 sq).box p).miny| ≤ 2 ^ 23 ∧
      |((exE64 sq).box p).maxx| ≤ 2 ^ 23 ∧ |((exE64 sq).box p).maxy| ≤ 2 ^ 23 := by
  have h1 : (-1000 : ℚ) ≤ max (-1000) (min 1000 p) := le_max_left _ _
  have h2 : max (-1000 : ℚ) (min 1000 p) ≤ 1000 := max_le (by norm_num) (min_le_left _ _)
  simp only [exE64, abs_le]
  generalize max (-1000 : ℚ) (min 1000 p) = x at *
  norm_num
  refine ⟨?_, ⟨?_, ?_⟩, ?_, ?_⟩ <;> linarith

example {sq : ℚ → ℚ} (hs : CorrectSqrt sq) :=
  C78_tracker hs (E := exE64 sq) rfl (fun p => (exE64_ok sq p).1) (fun p => (exE64_ok sq p).2) exPrm
    exCalls (fun c hc => by
      have h := exCalls_ok c hc
      cases c with
      | predict m ord => exact h
      | correct S ch scan d => exact h)

end Verif.RTreeF
