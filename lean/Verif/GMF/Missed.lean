import Verif.GMF.Props
import Verif.HypF.Witness

/-! # Property C83: the cost of a missed detection in `double` arithmetic -/

namespace Verif.GMF

open Verif.Lap Verif.LapF Verif.GM Verif.HypF Verif.Murty XR
open Verif.RTreeF (isDouble_zero isDouble_one)

variable {X : Type}

/-- `-std::log(x)`, `target.hpp:129`, `140`: NaN for negative numbers and `+inf` for zero; `lg` is the
library function on positive numbers. -/
def negLog (lg : ℚ → ℚ) (x : ℚ) : XR :=
  if x < 0 then .nan else if x = 0 then .pinf else .fin (-lg x)

/-- `mres = -std::log(r * pdfs[M].missed(sensor))`, `target.hpp:140`. -/
def missCost (lg : ℚ → ℚ) (r : ℚ) (pD : Cmp X ℚ → ℚ) (c : List (Cmp X ℚ)) : XR :=
  negLog lg (fl (r * missed pD c))

/-- The rounded sum is close to the sum, whatever its size. -/
theorem fsum_close {ws : List ℚ} (hw : Weights ws) (hn : ws.length ≤ 2 ^ 20) :
    |fsum ws - ws.sum| ≤ ws.sum * (ws.length / 2 ^ 51) := by
  obtain ⟨-, f0, h1, h2, -, -⟩ := fsum_spec hw hn
  obtain ⟨r1, r2⟩ := rho_len hn
  have hR := rho_pow_pos ws.length
  have W0 : 0 ≤ ws.sum := List.sum_nonneg fun w h => (hw w h).2.1
  have k : (1 - (ws.length : ℚ) / 2 ^ 51) * rho ^ ws.length ≤ 1 := by
    have k1 : (1 - (ws.length : ℚ) / 2 ^ 51) * rho ^ ws.length ≤
        (2 - rho ^ ws.length) * rho ^ ws.length := mul_le_mul_of_nonneg_right (by linarith) hR.le
    have := sq_nonneg (rho ^ ws.length - 1)
    linarith [show (2 - rho ^ ws.length) * rho ^ ws.length = 1 - (rho ^ ws.length - 1) ^ 2 by ring]
  have low : ws.sum * (1 - ws.length / 2 ^ 51) ≤ fsum ws := by
    have k2 : ws.sum / rho ^ ws.length ≤ fsum ws := (div_le_iff₀ hR).2 h1
    have k3 : 1 - (ws.length : ℚ) / 2 ^ 51 ≤ 1 / rho ^ ws.length := (le_div_iff₀ hR).2 k
    calc ws.sum * (1 - ws.length / 2 ^ 51) ≤ ws.sum * (1 / rho ^ ws.length) :=
          mul_le_mul_of_nonneg_left k3 W0
      _ = ws.sum / rho ^ ws.length := by ring
      _ ≤ fsum ws := k2
  have up := h2.trans (mul_le_mul_of_nonneg_left r1 W0)
  rw [abs_le]
  constructor
  · linarith [show ws.sum * (1 - (ws.length : ℚ) / 2 ^ 51) =
      ws.sum - ws.sum * (ws.length / 2 ^ 51) by ring]
  · linarith [show ws.sum * (1 + (ws.length : ℚ) / 2 ^ 51) =
      ws.sum + ws.sum * (ws.length / 2 ^ 51) by ring]

/-- C83: for a mixture of `n` components as `normalize` leaves it (weights in [0, 1] that sum to 1 up
to `(n + 1) / 2 ^ 51`) and detection probabilities in [0, 1], the number returned by `missed` is at
most 1 and differs from the exact `1 - ∑ w pD` by at most `(3 n + 4) / 2 ^ 51`.  So it is positive,
and the cost of a missed detection is a number, when the exact probability is larger than that. -/
theorem C83_missed (pD : Cmp X ℚ → ℚ) (c : List (Cmp X ℚ)) (hn : c.length ≤ 2 ^ 20)
    (hw : ∀ g ∈ c, 0 ≤ g.w ∧ g.w ≤ 1) (hp : ∀ g ∈ c, 0 ≤ pD g ∧ pD g ≤ 1)
    (h1 : |(c.map Cmp.w).sum - 1| ≤ (c.length + 1) / 2 ^ 51 + c.length * (1 / 2 ^ 1074)) :
    missed pD c ≤ 1 ∧
      |missed pD c - (1 - (c.map fun g => g.w * pD g).sum)| ≤ (3 * c.length + 4) / 2 ^ 51 ∧
      ((3 * c.length + 4) / 2 ^ 51 < 1 - (c.map fun g => g.w * pD g).sum → 0 < missed pD c) := by
  have hq : (c.length : ℚ) ≤ 2 ^ 20 := by exact_mod_cast hn
  have n0 : (0 : ℚ) ≤ c.length := Nat.cast_nonneg _
  have t0 := tiny_pos
  have tl := tiny_le
  have hnt : (c.length : ℚ) * tiny ≤ 1 / 2 ^ 80 := by
    calc (c.length : ℚ) * tiny ≤ 2 ^ 20 * (1 / 2 ^ 100) := mul_le_mul hq tl t0.le (by norm_num)
      _ = 1 / 2 ^ 80 := by norm_num
  have hp1 : ∀ g ∈ c, 0 ≤ g.w * pD g ∧ g.w * pD g ≤ 1 := fun g hg =>
    ⟨mul_nonneg (hw g hg).1 (hp g hg).1, mul_le_one₀ (hw g hg).2 (hp g hg).1 (hp g hg).2⟩
  have hu := fun g hg => fl_unit (hp1 g hg).1 (hp1 g hg).2
  have hW : Weights (c.map fun g => fl (g.w * pD g)) := by
    intro w h
    obtain ⟨g, hg, rfl⟩ := List.mem_map.1 h
    obtain ⟨a, b, d, -⟩ := hu g hg
    exact ⟨a, b, d.trans (one_le_pow₀ (by norm_num))⟩
  have hlen : (c.map fun g => fl (g.w * pD g)).length = c.length := List.length_map _
  have hs := fsum_close hW (by rw [hlen]; exact hn)
  obtain ⟨-, e0, -, -, eb, -⟩ := fsum_spec hW (by rw [hlen]; exact hn)
  rw [hlen] at hs
  have hc := sum_close c (fun g => fl (g.w * pD g)) (fun g => g.w * pD g) (E := 1 / 2 ^ 53)
    (t := tiny) (fun g hg => by
      have := (hu g hg).2.2.2
      rwa [div_eq_mul_one_div] at this)
  have hE : (c.map fun g => g.w * pD g).sum ≤ (c.map Cmp.w).sum :=
    List.sum_le_sum fun g hg => mul_le_of_le_one_right (hw g hg).1 (hp g hg).2
  have hE0 : 0 ≤ (c.map fun g => g.w * pD g).sum := List.sum_nonneg fun x hx => by
    obtain ⟨g, hg, rfl⟩ := List.mem_map.1 hx
    exact (hp1 g hg).1
  have eb' : fsum (c.map fun g => fl (g.w * pD g)) ≤ 2 ^ 521 := eb
  clear eb
  unfold missed
  rw [show (1 : ℚ) / 2 ^ 1074 = tiny from rfl] at h1
  generalize (c.map fun g => g.w * pD g).sum = E at *
  generalize (c.map Cmp.w).sum = S at *
  generalize hP : (c.map fun g => fl (g.w * pD g)).sum = P at *
  generalize fsum (c.map fun g => fl (g.w * pD g)) = e at *
  clear hP eb' hW hu hp1 hlen
  have d1 : ((c.length : ℚ) + 1) / 2 ^ 51 ≤ 1 / 2 ^ 30 := by
    rw [div_le_iff₀ (by norm_num)]
    linarith [show (1:ℚ) / 2 ^ 30 * 2 ^ 51 = 2 ^ 21 by norm_num,
      show (2:ℚ) ^ 20 + 1 ≤ 2 ^ 21 by norm_num]
  have hnq : (c.length : ℚ) / 2 ^ 51 ≤ 1 / 2 ^ 30 := by
    rw [add_div] at d1
    have : (0:ℚ) ≤ 1 / 2 ^ 51 := by norm_num
    linarith
  have hnq0 : (0 : ℚ) ≤ c.length / 2 ^ 51 := by positivity
  rw [abs_le] at h1 hs hc
  have E2 : E ≤ 3 / 2 := by
    have : (1:ℚ) / 2 ^ 30 + 1 / 2 ^ 80 ≤ 1 / 2 := by norm_num
    linarith [h1.2]
  have P2 : P ≤ 2 := by
    have k1 : E * (1 / 2 ^ 53) ≤ 3 / 2 * (1 / 2 ^ 53) := mul_le_mul_of_nonneg_right E2 (by norm_num)
    have : (3:ℚ) / 2 * (1 / 2 ^ 53) + 1 / 2 ^ 80 ≤ 1 / 2 := by norm_num
    linarith [hc.2]
  have k1 : E * (1 / 2 ^ 53) ≤ 3 / 2 * (1 / 2 ^ 53) := mul_le_mul_of_nonneg_right E2 (by norm_num)
  have k2 : P * (c.length / 2 ^ 51) ≤ 2 * (c.length / 2 ^ 51) :=
    mul_le_mul_of_nonneg_right P2 hnq0
  have e3 : e ≤ 3 := by
    have : (2:ℚ) * (1 / 2 ^ 30) ≤ 1 := by norm_num
    linarith [hs.2]
  have ha : |1 - e| ≤ 2 := by rw [abs_le]; constructor <;> linarith
  have hb : |1 - e| ≤ 2 ^ 1000 := big_of_le (k := 1) (by norm_num) (by rw [pow_one]; exact ha)
  have hf := abs_le.1 (fl_err hb)
  have ka : |1 - e| / 2 ^ 53 ≤ 2 / 2 ^ 53 := div_le_div_of_nonneg_right ha (by norm_num)
  have main : |fl (1 - e) - (1 - E)| ≤ (3 * c.length + 4) / 2 ^ 51 := by
    have num : (3:ℚ) / 2 * (1 / 2 ^ 53) + 2 / 2 ^ 53 + 1 / 2 ^ 80 + 1 / 2 ^ 100 ≤ 4 / 2 ^ 51 := by
      norm_num
    have e1 : (3 * (c.length : ℚ) + 4) / 2 ^ 51 = 3 * (c.length / 2 ^ 51) + 4 / 2 ^ 51 := by ring
    rw [e1, abs_le]
    constructor <;> linarith [hf.1, hf.2, hs.1, hs.2, hc.1, hc.2]
  refine ⟨?_, main, ?_⟩
  · have := fl_mono hb (abs_small zero_le_one le_rfl) (by linarith : 1 - e ≤ 1)
    rwa [fl_one] at this
  · intro h
    have := (abs_le.1 main).1
    linarith

/-- C83: what the cost of a missed detection is.  A probability of being missed that comes out as zero costs
`+inf`, so that the assignment never chooses it; a positive one costs `-log` of the rounded product, unless that
product underflows to zero; it is never NaN, nor `-inf`. -/
theorem C83_cost (lg : ℚ → ℚ) (r : ℚ) (pD : Cmp X ℚ → ℚ) (c : List (Cmp X ℚ)) (hr : 0 ≤ r ∧ r ≤ 1)
    (h1 : missed pD c ≤ 1) :
    (missed pD c = 0 → missCost lg r pD c = .pinf) ∧
      (0 < missed pD c → missCost lg r pD c = .pinf ∧ r * missed pD c ≤ 2 * (1 / 2 ^ 1074) ∨
        ∃ p, 0 < p ∧ |p - r * missed pD c| ≤ r * missed pD c / 2 ^ 53 + 1 / 2 ^ 1074 ∧
          missCost lg r pD c = .fin (-lg p)) := by
  constructor
  · intro h
    unfold missCost negLog
    rw [h, mul_zero, fl_zero]
    simp
  · intro h
    obtain ⟨-, f0, -, fe⟩ := fl_unit (mul_nonneg hr.1 h.le) (mul_le_one₀ hr.2 h.le h1)
    have te : tiny = 1 / 2 ^ 1074 := rfl
    unfold missCost negLog
    rw [if_neg (not_lt.2 f0)]
    by_cases hz : fl (r * missed pD c) = 0
    · left
      refine ⟨if_pos hz, ?_⟩
      rw [hz, zero_sub, abs_neg, abs_of_nonneg (mul_nonneg hr.1 h.le)] at fe
      rw [← te]
      have := mul_nonneg hr.1 h.le
      linarith
    · right
      exact ⟨_, lt_of_le_of_ne f0 (Ne.symm hz), te ▸ fe, if_neg hz⟩

/-- The two cases: a target surely detected, and one missed with probability 1/10. -/
example (lg : ℚ → ℚ) : missCost lg (1 / 2) (fun _ => 1) [⟨(), 1⟩] = .pinf :=
  (C83_cost lg (1 / 2) (fun _ => 1) [⟨(), 1⟩] (by norm_num) (by decide +kernel)).1 (by decide +kernel)

example (lg : ℚ → ℚ) : ∃ p, 0 < p ∧ missCost lg (1 / 2) (fun _ => fl (9 / 10)) (normalize exTen).c = .fin (-lg p) := by
  rcases (C83_cost lg (1 / 2) (fun _ => fl (9 / 10)) (normalize exTen).c (by norm_num) (by decide +kernel)).2
    (by decide +kernel) with ⟨-, h⟩ | ⟨p, h, -, h'⟩
  · exact absurd h (by decide +kernel)
  · exact ⟨p, h, h'⟩

example := C83_missed (fun _ => fl (9 / 10)) (normalize exTen).c (by decide +kernel)
  (by decide +kernel) (by decide +kernel) exTen_sum

example : 0 < missed (fun _ => fl (9 / 10)) (normalize exTen).c :=
  (C83_missed (fun _ => fl (9 / 10)) (normalize exTen).c (by decide +kernel)
    (by decide +kernel) (by decide +kernel) exTen_sum).2.2 (by decide +kernel)

/-! ## Certain detection -/

/-- Two components of weights 0.29 and 0.03, as after a `join`. -/
def exTwo : Mix Nat ℚ := ⟨[⟨0, fl (29 / 100)⟩, ⟨1, fl (3 / 100)⟩], 0⟩

theorem exTwo_missed : missed (fun _ => 1) (normalize exTwo).c = -(1 / 2 ^ 52) := by decide +kernel

/-- A target with a missed detection of negative probability: the cost is NaN. -/
theorem missCost_nan (lg : ℚ → ℚ) {r : ℚ} (h0 : 1 / 2 ^ 900 ≤ r) (h1 : r ≤ 1) :
    missCost lg r (fun _ => 1) (normalize exTwo).c = nan := by
  unfold missCost
  rw [exTwo_missed]
  have hle : r * -(1 / 2 ^ 52) ≤ -(1 / 2 ^ 952) := by
    have : (1 : ℚ) / 2 ^ 952 = 1 / 2 ^ 900 * (1 / 2 ^ 52) := by
      rw [div_mul_div_comm, one_mul, ← pow_add]
    rw [this, mul_neg]
    exact neg_le_neg (mul_le_mul_of_nonneg_right h0 (by norm_num))
  have r0 : 0 ≤ r := le_trans (by positivity) h0
  have hb : |r * -(1 / 2 ^ 52)| ≤ 2 ^ 1000 := by
    rw [mul_neg, abs_neg]
    exact abs_small (mul_nonneg r0 (by norm_num))
      (mul_le_one₀ h1 (by norm_num) (by norm_num))
  have hd : IsDouble (-(1 / 2 ^ 952)) := ⟨-1, -952, by
    rw [zpow_neg, one_div]; push_cast; rw [neg_mul, one_mul]; rfl, by norm_num, by norm_num,
    by norm_num⟩
  have hb2 : |-(1 / 2 ^ 952 : ℚ)| ≤ 2 ^ 1000 := by
    rw [abs_neg]
    exact abs_small (by positivity) (by
      rw [div_le_one (by positivity)]; exact one_le_pow₀ (by norm_num))
  have hm := fl_mono hb hb2 hle
  rw [fl_double hd hb2] at hm
  have hneg : fl (r * -(1 / 2 ^ 52)) < 0 := lt_of_le_of_lt hm (by
    rw [neg_lt_zero]; positivity)
  exact if_pos hneg

/-- C83: `missed` need not return a probability, with the default detection probability 1.0
(`sensors.hpp:26`) and all of the target in view: the weights 0.29 and 0.03 are normalised to
`double`s whose rounded sum is above 1, the returned probability is `-2 ^ -52`, and the cost of a
missed detection is NaN for every existence probability (and every `std::log`). -/
theorem C83_missed_refuted : ∃ m : Mix Nat ℚ,
    (∀ g ∈ m.c, IsDouble g.w ∧ 0 ≤ g.w ∧ g.w ≤ 1) ∧ (normalize m).c.length = 2 ∧
    missed (fun _ => 1) (normalize m).c < 0 ∧
    ∀ (lg : ℚ → ℚ) (r : ℚ), 1 / 2 ^ 900 ≤ r → r ≤ 1 →
      missCost lg r (fun _ => 1) (normalize m).c = nan := by
  refine ⟨exTwo, ?_, by decide +kernel, ?_, fun lg r h0 h1 => missCost_nan lg h0 h1⟩
  · intro g hg
    simp only [exTwo, List.mem_cons, List.not_mem_nil, or_false] at hg
    rcases hg with rfl | rfl
    · obtain ⟨a, b, d, -⟩ := fl_unit (x := 29 / 100) (by norm_num) (by norm_num)
      exact ⟨a, b, d⟩
    · obtain ⟨a, b, d, -⟩ := fl_unit (x := 3 / 100) (by norm_num) (by norm_num)
      exact ⟨a, b, d⟩
  · rw [exTwo_missed]; norm_num

/-! ## All targets of a cluster lost -/

/-- Costs of the associations of three targets with two reports. -/
def lostDet (i : Fin 3) (j : Fin 2) : ℚ := ![![1, 0], ![0, 0], ![2, 1]] i j

/-- The cost matrix: misses cost NaN, each target has a cost 5 of being false. -/
def lostC : Cost 3 (2 + 2 * 3) :=
  Hyp.costMatrix (fun i j => fin (lostDet i j)) (fun _ => nan) fun _ => fin 5

theorem lost_solve : (MurtyF.solve b64 60 (root lostC)).map (·.2) = some false := by decide +kernel

theorem lost_init : MurtyF.init b64 MurtyF.mul64 lostC = some ⟨fin 0, [root lostC]⟩ := by
  have h : ((minCoeff lostC).map fun mn => mn.lt (fin 0)) = some false := by decide +kernel
  unfold MurtyF.init
  cases hm : minCoeff lostC with
  | none => rw [hm] at h; cases h
  | some mn =>
    rw [hm] at h
    have h' : mn.lt (fin 0) = false := Option.some.inj h
    simp [h']

/-- A queue of one node that has no solution is exhausted by one draw. -/
theorem draw_dead {n m : Nat} {pick : List (Node n m) → Nat} (hp : PickOk pick) {fuel : Nat}
    {s : Node n m} (hu : s.solved = false) {o : XR}
    (hs : (MurtyF.solve b64 fuel s).map (·.2) = some false) :
    MurtyF.draw b64 pick fuel ⟨o, [s]⟩ = some (none, ⟨o, []⟩) := by
  obtain ⟨t, ht, -⟩ := hp [s] (by simp)
  have h0 : pick [s] = 0 := by
    have := (List.getElem?_eq_some_iff.1 ht).1
    simpa using this
  cases hv : MurtyF.solve b64 fuel s with
  | none => rw [hv] at hs; cases hs
  | some v =>
    obtain ⟨s', ok⟩ := v
    rw [hv] at hs
    have hk : ok = false := Option.some.inj hs
    subst hk
    unfold MurtyF.draw MurtyF.drawTop
    simp [h0, hu, hv]

/-- The sum of NaNs is NaN. -/
theorem sum_nan {k : Nat} (t : Order k) {f : Fin k → XR} (h : ∀ i, f i = nan) : t.sum f = nan := by
  induction t with
  | leaf i => exact h i
  | node l r hl hr => unfold Order.sum; rw [hl, hr]; rfl

/-- C83: with such misses all targets of a cluster can be lost.  Three targets with the mixture
above, any existence probabilities and two reports; the costs of the associations and of the targets
being false are as given.  No hypothesis is found, and all posterior existence probabilities are 0,
although the second target with the first report, the first target with the second report and a
false third target is an explanation of cost 5 without any missed detection. -/
theorem C83_lost_refuted (lg : ℚ → ℚ) (r : Fin 3 → ℚ) (hr : ∀ i, 1 / 2 ^ 900 ≤ r i ∧ r i ≤ 1)
    {pick : List (Node 3 (2 + 2 * 3)) → Nat} (hp : PickOk pick) (ex : ℚ → XR) (wlim nmax : ℚ) :
    ∃ C : Cost 3 (2 + 2 * 3),
      C = Hyp.costMatrix (fun i j => fin (![![1, 0], ![0, 0], ![2, 1]] i j))
        (fun i => missCost lg (r i) (fun _ => 1) (normalize exTwo).c) (fun _ => fin 5) ∧
      (C 0 1 = fin 0 ∧ C 1 0 = fin 0 ∧ C 2 7 = fin 5) ∧
      ∃ (F : Nat) (a : HypF.Acc 3 2),
        (∀ fuel, F ≤ fuel → hypotheses pick fuel ex wlim nmax C = some a) ∧ a.n = 0 ∧
        ∀ t i, a.posterior t i = fin 0 := by
  have hC : Hyp.costMatrix (fun i j => fin (![![1, 0], ![0, 0], ![2, 1]] i j))
      (fun i => missCost lg (r i) (fun _ => 1) (normalize exTwo).c) (fun _ => fin 5) = lostC := by
    unfold lostC lostDet
    congr 1
    funext i
    exact missCost_nan lg (hr i).1 (hr i).2
  refine ⟨_, rfl, ?_, 60, HypF.Acc.zero, ?_, rfl, ?_⟩
  · rw [hC]; decide +kernel
  · intro fuel hf
    rw [hC]
    unfold hypotheses
    rw [lost_init]
    obtain ⟨k, rfl⟩ : ∃ k, fuel = k + 1 := ⟨fuel - 1, by omega⟩
    have hsol : (MurtyF.solve b64 (k + 1) (root lostC)).map (·.2) = some false := by
      have h60 := lost_solve
      cases hv : MurtyF.solve b64 60 (root lostC) with
      | none => rw [hv] at h60; cases h60
      | some v =>
        rw [hv] at h60
        rw [MurtyF.solve_mono b64 hf hv]
        exact h60
    unfold HypF.loop
    dsimp only
    rw [draw_dead hp rfl hsol]
  · intro t i
    have : ∀ j, (HypF.Acc.zero : HypF.Acc 3 2).norm i j = nan := by
      intro j
      unfold HypF.Acc.norm HypF.Acc.zero div64
      simp
    unfold HypF.Acc.posterior HypF.Acc.rowSum
    rw [sum_nan t this]
    unfold targetCorrect
    have h6 : (round64 (1 / 1000000)).le nan = false := by decide +kernel
    rw [h6]
    rfl

example := C83_lost_refuted (fun _ => 0) (fun _ => 1 / 2) (fun _ =>
  ⟨one_div_le_one_div_of_le (by norm_num) (le_self_pow₀ (by norm_num) (by norm_num)), by norm_num⟩)
  MurtyF.firstBest_ok (fun _ => fin 1) (1 / 100) 100

end Verif.GMF
