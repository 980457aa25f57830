import Verif.System.Still
import Verif.CF.Shift

/-!
# C128, predictions: the meridian longitudes are counted from does not matter
-/

namespace Verif.System

open Verif.Tracker Matrix
open Verif.Kalman (cvF cvQ)

theorem single_predict (k : Opts) {lat lon vn ve pS q dT : ℝ} {t : Tgt Pdf} {P : Matrix (Fin 4) (Fin 4) ℝ}
    (ht : t.pdf.mix.c = [⟨(![lat, lon, vn, ve], P), 1⟩]) :
    (predictTgt (env k) (cv pS q dT) t).pdf.mix.c =
      [⟨(![CF.ne2ll ![vn * dT, ve * dT] ![lat, lon] 0, CF.ne2ll ![vn * dT, ve * dT] ![lat, lon] 1, vn, ve],
        cvF dT * P * (cvF dT)ᵀ + cvQ q dT), 1⟩] := by
  have hpos : pos t.pdf = ![lat, lon] := by
    unfold pos
    rw [Kalman.mean_eq, ht]
    ext i
    fin_cases i <;> simp [toG, head]
  have hz : CF.ll2ne ![lat, lon] ![lat, lon] = 0 := (CF.C49_ne ![lat, lon] ![lat, lon] ![lat, lon]).2.1
  have e := predict_full (k := k) (m := cv pS q dT) (F := cvF dT) (Q := cvQ q dT) rfl (t := t)
    (by rw [ht]; simp)
  rw [ht, hpos] at e
  have hh : head ![lat, lon, vn, ve] = ![lat, lon] := rfl
  have hl : setHead 0 ![lat, lon, vn, ve] = ![0, 0, vn, ve] := by
    ext i
    fin_cases i <;> rfl
  have hF : cvF dT *ᵥ ![0, 0, vn, ve] = ![vn * dT, ve * dT, vn, ve] := by
    ext i
    fin_cases i <;> simp [cvF, Matrix.mulVec, dotProduct, Fin.sum_univ_four, mul_comm]
  have hh2 : head ![vn * dT, ve * dT, vn, ve] = ![vn * dT, ve * dT] := rfl
  simp only [List.map_cons, List.map_nil, hh, hz, hl, hF, hh2] at e
  rw [e]
  have : setHead (CF.ne2ll ![vn * dT, ve * dT] ![lat, lon]) ![vn * dT, ve * dT, vn, ve] =
      ![CF.ne2ll ![vn * dT, ve * dT] ![lat, lon] 0, CF.ne2ll ![vn * dT, ve * dT] ![lat, lon] 1, vn, ve] := by
    ext i
    fin_cases i <;> rfl
  rw [this]

/-- **C128, predictions** Two targets of one component that differ by an angle in longitude only: the prediction takes
both to the same latitude, with the same velocity and covariance, and to longitudes that differ by the same angle, up to
a multiple of 360 degrees, also if one of them passes the antimeridian. -/
theorem C128_predict (k : Opts) {lat lon d vn ve pS q dT : ℝ} {t t' : Tgt Pdf} {P : Matrix (Fin 4) (Fin 4) ℝ}
    (ht : t.pdf.mix.c = [⟨(![lat, lon, vn, ve], P), 1⟩]) (ht' : t'.pdf.mix.c = [⟨(![lat, lon + d, vn, ve], P), 1⟩])
    (hn : (vn * dT) ^ 2 + (ve * dT) ^ 2 ≤ (10 ^ 6) ^ 2)
    (hX : 1 ≤ (CF.nrad lat * CF.cosd lat - vn * dT * CF.sind lat) ^ 2 + (ve * dT) ^ 2) :
    ∃ L M P', ∃ i : ℤ, (predictTgt (env k) (cv pS q dT) t).pdf.mix.c = [⟨(![L, M, vn, ve], P'), 1⟩] ∧
      (predictTgt (env k) (cv pS q dT) t').pdf.mix.c = [⟨(![L, M + d + 360 * i, vn, ve], P'), 1⟩] := by
  obtain ⟨h1, i, h2⟩ := CF.C128_global d lat lon (vn * dT) (ve * dT) hn hX
  refine ⟨_, _, _, i, single_predict k ht, ?_⟩
  rw [single_predict k ht', h1, h2]

/-- A ship at the equator, seen from two meridians. -/
example (k : Opts) (d : ℝ) {t t' : Tgt Pdf} (ht : t.pdf.mix.c = [⟨(![0, 179, 5, 10], 1), 1⟩])
    (ht' : t'.pdf.mix.c = [⟨(![0, 179 + d, 5, 10], 1), 1⟩]) :
    ∃ L M P', ∃ i : ℤ, (predictTgt (env k) (cv 1 1 60) t).pdf.mix.c = [⟨(![L, M, 5, 10], P'), 1⟩] ∧
      (predictTgt (env k) (cv 1 1 60) t').pdf.mix.c = [⟨(![L, M + d + 360 * i, 5, 10], P'), 1⟩] :=
  C128_predict k ht ht' (by norm_num) (by
    have := sq_nonneg (CF.nrad 0 * CF.cosd 0 - 5 * 60 * CF.sind 0)
    linarith)

end Verif.System
