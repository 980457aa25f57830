import Verif.MurtyF.Parts
import Verif.Murty.Draw
import Verif.Murty.Props

/-! # Drawing in rounded arithmetic -/

namespace Verif.MurtyF

open Verif.Lap Verif.Lap.XR Verif.LapF Verif.Murty

variable {n m : Nat}

/-- Invariant of the queue. -/
structure QOk (ar : Arith) (A : Cost n m) (D : Nat) (K δ S : ℚ) (Q : List (Node n m)) : Prop where
  full : ∀ s ∈ Q, Full ar A D K δ S s
  disj : Q.Pairwise (Disj A)

theorem QOk.perm {ar : Arith} {A : Cost n m} {D : Nat} {K δ S : ℚ}
    {Q Q' : List (Node n m)} (h : QOk ar A D K δ S Q) (p : Q.Perm Q') :
    QOk ar A D K δ S Q' :=
  ⟨fun s hs => h.full s (p.mem_iff.2 hs), (p.pairwise_iff (disj_symm A)).1 h.disj⟩

/-- Replacing the first element by one with the same assignments. -/
theorem QOk.replace {ar : Arith} {A : Cost n m} {D : Nat} {K δ S : ℚ}
    {s s' : Node n m} {Q : List (Node n m)} (h : QOk ar A D K δ S (s :: Q))
    (h1 : Full ar A D K δ S s') (h2 : ∀ τ, Sols A s' τ ↔ Sols A s τ) : QOk ar A D K δ S (s' :: Q) := by
  have hd := List.pairwise_cons.1 h.disj
  refine ⟨?_, List.Pairwise.cons ?_ hd.2⟩
  · intro x hx
    rcases List.mem_cons.1 hx with rfl | hx
    · exact h1
    · exact h.full x (List.mem_cons_of_mem _ hx)
  · intro x hx τ h3
    exact hd.1 x hx τ ⟨(h2 τ).1 h3.1, h3.2⟩

theorem QOk.tail {ar : Arith} {A : Cost n m} {D : Nat} {K δ S : ℚ}
    {s : Node n m} {Q : List (Node n m)} (h : QOk ar A D K δ S (s :: Q)) :
    QOk ar A D K δ S Q :=
  ⟨fun x hx => h.full x (List.mem_cons_of_mem _ hx), (List.pairwise_cons.1 h.disj).2⟩

/-- The loop that solves the top of the queue. -/
theorem drawTop_spec {ar : Arith} {A : Cost n m} {D : Nat} {R K δ S : ℚ}
    (hE : Env ar A D R K δ S) (hn : n ≤ 30) {pick : List (Node n m) → Nat}
    (hp : PickOk pick) (k : Nat) :
    ∀ Q, QOk ar A D K δ S Q → Q ≠ [] → Q.countP (fun s => !s.solved) < k →
      ∃ F out, (∀ fuel, F ≤ fuel → drawTop ar pick fuel k Q = some out) ∧
        (out = none → ∀ τ, ¬ Rem A Q τ) ∧
        (∀ s Q', out = some (s, Q') → s.solved = true ∧ QOk ar A D K δ S (s :: Q') ∧
          (∀ τ, Rem A (s :: Q') τ ↔ Rem A Q τ) ∧ ∀ x ∈ Q', worse s x = false) := by
  induction k with
  | zero => intro Q _ _ h; omega
  | succ k ih =>
    intro Q hQ hne hc
    obtain ⟨s, hs, hbest⟩ := hp Q hne
    have hperm := eraseIdx_perm Q (pick Q) s hs
    have hQ' := hQ.perm hperm
    by_cases hsol : s.solved = true
    · refine ⟨0, some (s, Q.eraseIdx (pick Q)), ?_, by simp, ?_⟩
      · intro fuel _
        simp only [drawTop, hs, hsol, if_true]
      · intro s' Q' heq
        simp only [Option.some.injEq, Prod.mk.injEq] at heq
        obtain ⟨rfl, rfl⟩ := heq
        refine ⟨hsol, hQ', fun τ => (rem_perm hperm τ).symm, ?_⟩
        intro x hx
        exact hbest x (hperm.mem_iff.2 (List.mem_cons_of_mem _ hx))
    · have hsol' : s.solved = false := by simpa using hsol
      obtain ⟨F1, s', b, hrun, hfalse, htrue⟩ :=
        solve_spec hE (hQ.full s (hperm.mem_iff.2 List.mem_cons_self)).ok hn
      have hcount : (Q.eraseIdx (pick Q)).countP (fun s => !s.solved) < k := by
        rw [hperm.countP_eq, List.countP_cons_of_pos (by simp [hsol'])] at hc
        omega
      cases b with
      | false =>
        have hnone := hfalse rfl
        by_cases hemp : Q.eraseIdx (pick Q) = []
        · refine ⟨F1, none, ?_, ?_, by simp⟩
          · intro fuel hf
            simp only [drawTop, hs, hsol', hrun fuel hf, hemp]
            simp
          · intro _ τ hτ
            rw [rem_perm hperm, rem_cons, hemp] at hτ
            rcases hτ with h | ⟨_, h, _⟩
            · exact hnone τ h
            · simp at h
        · obtain ⟨F2, out, hrun2, h1, h2⟩ := ih _ hQ'.tail hemp hcount
          have hrem : ∀ τ, Rem A (Q.eraseIdx (pick Q)) τ ↔ Rem A Q τ := by
            intro τ
            rw [rem_perm hperm, rem_cons]
            exact ⟨Or.inr, fun h => h.resolve_left (hnone τ)⟩
          refine ⟨max F1 F2, out, ?_, ?_, ?_⟩
          · intro fuel hf
            have := hrun2 fuel (le_trans (le_max_right _ _) hf)
            simp only [drawTop, hs, hsol', hrun fuel (le_trans (le_max_left _ _) hf)]
            simp [hemp, this]
          · intro ho τ hτ
            exact h1 ho τ ((hrem τ).2 hτ)
          · intro s2 Q2 ho
            obtain ⟨h3, h4, h5, h6⟩ := h2 s2 Q2 ho
            exact ⟨h3, h4, fun τ => (h5 τ).trans (hrem τ), h6⟩
      | true =>
        obtain ⟨hfull, hsolved, hsols⟩ := htrue rfl
        obtain ⟨F2, out, hrun2, h1, h2⟩ := ih (s' :: Q.eraseIdx (pick Q))
          (hQ'.replace hfull hsols) (by simp)
          (by rw [List.countP_cons_of_neg (by simp [hsolved])]; exact hcount)
        have hrem : ∀ τ, Rem A (s' :: Q.eraseIdx (pick Q)) τ ↔ Rem A Q τ := by
          intro τ
          rw [rem_perm hperm, rem_cons, rem_cons, hsols]
        refine ⟨max F1 F2, out, ?_, ?_, ?_⟩
        · intro fuel hf
          have := hrun2 fuel (le_trans (le_max_right _ _) hf)
          simp only [drawTop, hs, hsol', hrun fuel (le_trans (le_max_left _ _) hf)]
          simp [this]
        · intro ho τ hτ
          exact h1 ho τ ((hrem τ).2 hτ)
        · intro s2 Q2 ho
          obtain ⟨h3, h4, h5, h6⟩ := h2 s2 Q2 ho
          exact ⟨h3, h4, fun τ => (h5 τ).trans (hrem τ), h6⟩

/-- One draw. -/
theorem draw_spec {ar : Arith} {A : Cost n m} {D : Nat} {R K δ S : ℚ}
    (hE : Env ar A D R K δ S) (hn : n ≤ 30) {pick : List (Node n m) → Nat} (hp : PickOk pick)
    {M : State n m} (hQ : QOk ar A D K δ S M.queue) {o : ℚ} (ho : M.offset = fin o)
    (hog : OnGrid D o) (hoS : |o| ≤ (n + 1) * S) :
    ∃ F out M', (∀ fuel, F ≤ fuel → draw ar pick fuel M = some (out, M')) ∧ QOk ar A D K δ S M'.queue ∧
      M'.offset = fin o ∧
      ((out = none ∧ (∀ τ, ¬ Rem A M.queue τ) ∧ M'.queue = []) ∨
       ∃ σ c, out = some (fun k => some (σ k), fin c) ∧ |c - (total A σ + o)| ≤ (n + 1) * δ ∧
        Rem A M.queue σ ∧
        (∀ τ, Rem A M.queue τ → total A σ ≤ total A τ + (lowErr n δ + n * δ)) ∧
        ∀ τ, Rem A M'.queue τ ↔ Rem A M.queue τ ∧ τ ≠ σ) := by
  by_cases hemp : M.queue = []
  · refine ⟨0, none, M, ?_, hQ, ho, Or.inl ⟨rfl, ?_, hemp⟩⟩
    · intro fuel _
      simp [draw, hemp]
    · rintro τ ⟨s, hs, _⟩
      rw [hemp] at hs; simp at hs
  · obtain ⟨F, out, hrun, hnone, hsome⟩ := drawTop_spec hE hn hp (M.queue.length + 1) M.queue hQ hemp
      (Nat.lt_succ_of_le List.countP_le_length)
    have hne : M.queue.isEmpty = false := by simp [hemp]
    cases out with
    | none =>
      refine ⟨F, none, { M with queue := [] }, ?_, ⟨by simp, List.Pairwise.nil⟩, ho,
        Or.inl ⟨rfl, hnone rfl, rfl⟩⟩
      intro fuel hf
      simp [draw, hne, hrun fuel hf]
    | some sq =>
      obtain ⟨s, Q'⟩ := sq
      obtain ⟨hsolved, hQ', hrem, hbest⟩ := hsome s Q' rfl
      have hfull := hQ'.full s List.mem_cons_self
      obtain ⟨σ, ρ, hS⟩ := hfull.solved hsolved
      obtain ⟨order, ho1, ho2, ho3, ho4⟩ := sortByDual_spec ar s ρ hS.res
      obtain ⟨new, hn1, hn2, hn3, hn4⟩ := parts_spec hE hfull.ok hS order [] s id id
        ⟨hfull.ok, rfl, rfl, strictMono_id, strictMono_id, by simp, by simp, fun _ => rfl,
          fun _ => rfl, by simp⟩ ho2 ho3 ho4
      have hd := List.pairwise_cons.1 hQ'.disj
      have hnew : ∀ τ, Rem A (new ++ Q') τ ↔ Rem A M.queue τ ∧ τ ≠ σ := by
        intro τ
        rw [← hrem, rem_cons, rem_append]
        have : Rem A new τ ↔ Sols A s τ ∧ τ ≠ σ := hn4 τ
        rw [this]
        constructor
        · rintro (⟨h1, h2⟩ | h)
          · exact ⟨Or.inl h1, h2⟩
          · refine ⟨Or.inr h, ?_⟩
            rintro rfl
            obtain ⟨x, hx, hx'⟩ := h
            exact hd.1 x hx τ ⟨hS.mem, hx'⟩
        · rintro ⟨h1 | h1, h2⟩
          · exact Or.inl ⟨h1, h2⟩
          · exact Or.inr h1
      obtain ⟨w, hw, hwg, hwt⟩ := hS.cost
      have hδ := hE.rounds.nn
      have hn0 : (0 : ℚ) ≤ n := Nat.cast_nonneg n
      have hm0 : (0 : ℚ) ≤ m := Nat.cast_nonneg m
      have hwS : |w| ≤ n * S := by
        have h1 := total_le hE.scaled (hfull.ok.sols_fin hS.mem)
        have e : w = (w - total A σ) + total A σ := by ring
        have h2 := abs_add_le (w - total A σ) (total A σ)
        rw [← e] at h2
        have h3 : (0 : ℚ) ≤ n * δ := mul_nonneg hn0 hδ
        rw [hE.hS]; linarith
      obtain ⟨y, y1, y2, y3⟩ := hE.rounds.add w o hwg hog (hE.range hwS (by linarith))
        (hE.range hoS (by linarith))
      refine ⟨F, some (s.sol, fin y), { M with queue := new ++ Q' }, ?_, ?_, ho,
        Or.inr ⟨σ, y, ?_, ?_, ?_, ?_, hnew⟩⟩
      · intro fuel hf
        simp only [draw, hne, hrun fuel hf, ho1, hn1, hw, ho, Arith.add_fin_fin, y1]
        rfl
      · refine ⟨?_, ?_⟩
        · intro x hx
          rcases List.mem_append.1 hx with h | h
          · exact hn2 x h
          · exact hQ'.full x (List.mem_cons_of_mem _ h)
        · refine List.pairwise_append.2 ⟨hn3, hd.2, ?_⟩
          intro a ha b hb τ hab
          have := (hn4 τ).1 ⟨a, ha, hab.1⟩
          exact hd.1 b hb τ ⟨this.1, hab.2⟩
      · congr 2
        funext k
        exact hS.sol k
      · rw [abs_le] at y2 hwt ⊢
        constructor <;> linarith [y2.1, y2.2, hwt.1, hwt.2]
      · rw [← hrem]
        exact ⟨s, List.mem_cons_self, hS.mem⟩
      · intro τ hτ
        rw [← hrem, rem_cons] at hτ
        rcases hτ with h | ⟨x, hx, hx'⟩
        · have h1 := hS.best τ h
          have h2 : 0 ≤ (4 * (n : ℚ) + 4) * δ := mul_nonneg (by linarith) hδ
          unfold lowErr
          linarith
        · obtain ⟨c, hc, hlow⟩ := (hQ'.full x (List.mem_cons_of_mem _ hx)).low
          have h1 := not_worse hw hc (hbest x hx)
          have h2 := hlow τ hx'
          rw [abs_le] at hwt
          linarith [hwt.1]

/-- Draws from an empty queue. -/
theorem draws_empty (ar : Arith) (pick : List (Node n m) → Nat) (fuel k : Nat) (M : State n m)
    (h : M.queue = []) : draws ar pick fuel k M = some (List.replicate k none) := by
  induction k with
  | zero => rfl
  | succ k ih =>
    have : draw ar pick fuel M = some (none, M) := by simp [draw, h]
    simp only [draws, this, ih, Option.map_some, List.replicate_succ]

/-- Any number of draws. -/
theorem draws_spec {ar : Arith} {A : Cost n m} {D : Nat} {R K δ S : ℚ}
    (hE : Env ar A D R K δ S) (hn : n ≤ 30) {pick : List (Node n m) → Nat} (hp : PickOk pick)
    {o : ℚ} (hog : OnGrid D o) (hoS : |o| ≤ (n + 1) * S) (k : Nat) : ∀ M : State n m, QOk ar A D K δ S M.queue → M.offset = fin o →
      ∃ (F : Nat) (L : List ((Fin n → Fin m) × ℚ)),
        (∀ fuel, F ≤ fuel → draws ar pick fuel k M =
          some (L.map (fun p => some (fun i => some (p.1 i), fin p.2)) ++
            List.replicate (k - L.length) none)) ∧
        (L.map Prod.fst).Nodup ∧ (∀ p ∈ L, Rem A M.queue p.1) ∧
        (∀ p ∈ L, |p.2 - (total A p.1 + o)| ≤ (n + 1) * δ) ∧
        L.Pairwise (fun p q => total A p.1 ≤ total A q.1 + (lowErr n δ + n * δ)) ∧
        (∀ p ∈ L, ∀ τ, Rem A M.queue τ → τ ∉ L.map Prod.fst →
          total A p.1 ≤ total A τ + (lowErr n δ + n * δ)) ∧
        (L.length = k ∨ (L.length < k ∧ ∀ τ, Rem A M.queue τ → τ ∈ L.map Prod.fst)) := by
  induction k with
  | zero =>
    intro M _ _
    exact ⟨0, [], fun _ _ => rfl, List.nodup_nil, by simp, by simp, List.Pairwise.nil, by simp,
      Or.inl rfl⟩
  | succ k ih =>
    intro M hQ ho
    obtain ⟨F1, out, M', hrun, hQ', ho', hcase⟩ := draw_spec hE hn hp hQ ho hog hoS
    rcases hcase with ⟨rfl, hno, hemp⟩ | ⟨σ, c, rfl, hc, hmem, hbest, hrem⟩
    · refine ⟨F1, [], fun fuel hf => by
          simp [draws, hrun fuel hf, draws_empty ar pick fuel k M' hemp, List.replicate_succ],
        List.nodup_nil, by simp, by simp,
        List.Pairwise.nil, by simp, Or.inr ⟨Nat.succ_pos _, fun τ h => absurd h (hno τ)⟩⟩
    · obtain ⟨F2, L, h1, h2, h3, h3', h4, h5, h6⟩ := ih M' hQ' ho'
      refine ⟨max F1 F2, (σ, c) :: L, ?_, ?_, ?_, ?_, ?_, ?_, ?_⟩
      · intro fuel hf
        simp only [draws, hrun fuel (le_trans (le_max_left _ _) hf),
          h1 fuel (le_trans (le_max_right _ _) hf), Option.map_some, List.map_cons,
          List.cons_append, List.length_cons, Nat.add_sub_add_right]
      · rw [List.map_cons]
        refine List.nodup_cons.2 ⟨?_, h2⟩
        intro h
        obtain ⟨p, hp1, hp2⟩ := List.mem_map.1 h
        exact ((hrem _).1 (h3 p hp1)).2 hp2
      · intro x hx
        rcases List.mem_cons.1 hx with rfl | hx
        · exact hmem
        · exact ((hrem x.1).1 (h3 x hx)).1
      · intro x hx
        rcases List.mem_cons.1 hx with rfl | hx
        · exact hc
        · exact h3' x hx
      · refine List.Pairwise.cons ?_ h4
        intro x hx
        exact hbest x.1 ((hrem x.1).1 (h3 x hx)).1
      · intro x hx τ hτ hnot
        rw [List.map_cons, List.mem_cons, not_or] at hnot
        rcases List.mem_cons.1 hx with rfl | hx
        · exact hbest τ hτ
        · exact h5 x hx τ ((hrem τ).2 ⟨hτ, hnot.1⟩) hnot.2
      · rcases h6 with h6 | ⟨h6, h7⟩
        · left; simp [h6]
        · right
          refine ⟨by simp only [List.length_cons]; omega, ?_⟩
          intro τ hτ
          rw [List.map_cons]
          by_cases he : τ = σ
          · rw [he]; exact List.mem_cons_self
          · exact List.mem_cons_of_mem _ (h7 τ ((hrem τ).2 ⟨hτ, he⟩))

/-! ## Construction -/

theorem root_ok {ar : Arith} {A : Cost n m} {D : Nat} {R K δ S : ℚ} (hE : Env ar A D R K δ S)
    (hpos : ∀ i j q, A i j = fin q → -δ ≤ q) :
    QOk ar A D K δ S [root A] ∧ ∀ τ, Rem A [root A] τ ↔ Feasible A τ := by
  have hδ := hE.rounds.nn
  have hn0 : (0 : ℚ) ≤ n := Nat.cast_nonneg n
  have hsb := slackBound_nonneg (n := n) hδ
  have hs : ∀ τ, Sols A (root A) τ ↔ Feasible A τ := by
    intro τ
    constructor
    · rintro ⟨h1, _, h3⟩
      refine ⟨h1, fun a => ?_⟩
      obtain ⟨b, hb, hf⟩ := h3 a
      have hb' : τ a = b := hb
      rw [hb']; exact hf
    · rintro ⟨h1, h2⟩
      exact ⟨h1, fun k hk => absurd ⟨k, rfl⟩ hk, fun a => ⟨τ a, rfl, h2 a⟩⟩
  refine ⟨⟨?_, List.pairwise_singleton _ _⟩, ?_⟩
  · intro s h
    rw [List.mem_singleton.1 h]
    refine ⟨⟨0, 0, rfl, ⟨0, by simp⟩, ?_, ?_, ⟨Function.injective_id, Function.injective_id, hE.ok,
      fun _ _ _ => rfl, fun k hk => absurd ⟨k, rfl⟩ hk, fun k _ hk => absurd ⟨k, rfl⟩ hk,
      ⟨0, rfl, ?_⟩, le_refl _⟩⟩, ⟨0, rfl, ?_⟩, fun h => by cases h⟩
    · change |(0:ℚ) - 0| ≤ (n - n) * δ
      simp
    · change |(0:ℚ)| ≤ (n - n) * K
      simp
    · intro τ _
      rw [_root_.zero_add]; rfl
    · intro τ hτ
      have hf := (hs τ).1 hτ
      have h1 := Finset.card_nsmul_le_sum Finset.univ (fun i => (A i (τ i)).val) (-δ) (by
        intro i _
        obtain ⟨q, hq⟩ := hf.2 i
        rw [hq]; exact hpos i _ q hq)
      rw [Finset.card_univ, Fintype.card_fin, nsmul_eq_mul] at h1
      have h2 : total A τ = ∑ i, (A i (τ i)).val := rfl
      have h3 : 0 ≤ 2 * (n : ℚ) * slackBound n δ := mul_nonneg (by linarith) hsb
      have h4 : 0 ≤ (2 * (n : ℚ) + 4) * δ := mul_nonneg (by linarith) hδ
      unfold lowErr
      linarith
  · intro τ
    rw [rem_cons, hs]
    constructor
    · rintro (h | ⟨_, h, _⟩)
      · exact h
      · simp at h
    · exact Or.inl

/-- What is assumed of the product in the constructor. -/
def MulOk (n : Nat) (rm : ℚ → ℚ → XR) (D : Nat) (K δ : ℚ) : Prop :=
  ∀ q, OnGrid D q → |q| ≤ K → ∃ o, rm q n = fin o ∧ OnGrid D o ∧ |o - q * n| ≤ δ

/-- The constructor: a shifted matrix with the same feasible assignments, whose totals differ by
the offset, up to rounding. -/
theorem init_spec {ar : Arith} {rm : ℚ → ℚ → XR} {C : Cost n m} {D : Nat} {R K δ : ℚ}
    (hA : Rounds ar D R δ) (hrm : MulOk n rm D K δ) (hC : CostOk C) (hs : Scaled C D K)
    (hR : (10 * m + 2 * n + 20) * (2 * K + δ + 2 * δ) ≤ R) (hn : 0 < n) (hm : 0 < m) :
    ∃ (A : Cost n m) (M : State n m) (o : ℚ), init ar rm C = some M ∧
      Env ar A D R (2 * K + δ) δ (2 * K + δ + 2 * δ) ∧
      QOk ar A D (2 * K + δ) δ (2 * K + δ + 2 * δ) M.queue ∧
      M.offset = fin o ∧ OnGrid D o ∧ |o| ≤ (n + 1) * (2 * K + δ + 2 * δ) ∧
      (∀ τ, Rem A M.queue τ ↔ Feasible C τ) ∧
      ∀ τ, Feasible C τ → |total A τ + o - total C τ| ≤ (n + 1) * δ := by
  obtain ⟨mn, h1, h2, h3⟩ := minCoeff_spec hC hn hm
  have hδ := hA.nn
  have hK := hs.nn
  have hn0 : (0 : ℚ) ≤ n := Nat.cast_nonneg n
  have hm0 : (0 : ℚ) ≤ m := Nat.cast_nonneg m
  have hKR : K ≤ R := by
    have h4 : (1 : ℚ) * (2 * K + δ + 2 * δ) ≤ (10 * m + 2 * n + 20) * (2 * K + δ + 2 * δ) :=
      mul_le_mul_of_nonneg_right (by linarith) (by linarith)
    linarith
  by_cases hlt : mn.lt (fin 0) = true
  · obtain ⟨q, rfl⟩ : ∃ q, mn = fin q := by
      rcases h2 with rfl | ⟨q, rfl⟩
      · simp at hlt
      · exact ⟨q, rfl⟩
    -- the minimum is an entry
    have hqe : OnGrid D q ∧ |q| ≤ K := by
      have hmem : ∀ x, x ∈ ((List.finRange n).flatMap fun i => (List.finRange m).map (C i)) →
          ∃ i j, C i j = x := by
        intro x hx
        simpa [List.mem_flatMap, List.mem_map] using hx
      have hfold : ∀ (l : List XR) (x : XR),
          l.foldl (fun a b => if b.lt a then b else a) x ∈ x :: l := by
        intro l
        induction l with
        | nil => intro x; simp
        | cons y l ih =>
          intro x
          rw [List.foldl_cons]
          have := ih (if y.lt x then y else x)
          rcases List.mem_cons.1 this with h | h
          · rw [h]; split <;> simp
          · exact List.mem_cons_of_mem _ (List.mem_cons_of_mem _ h)
      have hex : ∃ i j, C i j = fin q := by
        unfold minCoeff at h1
        generalize hl : ((List.finRange n).flatMap fun i => (List.finRange m).map (C i)) = l
          at h1 hmem
        cases l with
        | nil => cases h1
        | cons x xs =>
          have := Option.some.inj h1
          exact hmem _ (this ▸ hfold xs x)
      obtain ⟨i, j, hij⟩ := hex
      exact ⟨hs.int i j q hij, hs.le i j q hij⟩
    have hent : ∀ i j, (C i j = pinf ∧ ar.sub (C i j) (fin q) = pinf) ∨
        ∃ x y, C i j = fin x ∧ ar.sub (C i j) (fin q) = fin y ∧ |y - (x - q)| ≤ δ ∧
          OnGrid D y ∧ -δ ≤ y ∧ |y| ≤ 2 * K + δ := by
      intro i j
      rcases hC i j with e | ⟨x, e⟩
      · exact Or.inl ⟨e, by rw [e]; rfl⟩
      · right
        have hx := hs.le i j x e
        obtain ⟨y, y1, y2, y3⟩ := hA.sub x q (hs.int i j x e) hqe.1 (hx.trans hKR)
          (hqe.2.trans hKR)
        obtain ⟨a, ha, hle⟩ := h3 i j x e
        injection ha with ha
        have hq2 := hqe.2
        rw [abs_le] at y2 hx hq2
        refine ⟨x, y, e, by rw [e]; exact y1, abs_le.2 y2, y3, by linarith [y2.1], ?_⟩
        rw [abs_le]
        constructor <;> linarith [y2.1, y2.2, hx.1, hx.2, hq2.1, hq2.2]
    set A : Cost n m := fun i j => ar.sub (C i j) (fin q) with hAdef
    have hfinA : ∀ i j, IsFin (A i j) ↔ IsFin (C i j) := by
      intro i j
      rcases hent i j with ⟨e1, e2⟩ | ⟨x, y, e1, e2, _⟩
      · change IsFin (ar.sub (C i j) (fin q)) ↔ _
        rw [e2, e1]
      · exact ⟨fun _ => ⟨x, e1⟩, fun _ => ⟨y, e2⟩⟩
    have hfeas : ∀ τ, Feasible A τ ↔ Feasible C τ := fun τ =>
      and_congr Iff.rfl (forall_congr' fun i => hfinA i (τ i))
    have hent' : ∀ i j y, A i j = fin y → OnGrid D y ∧ -δ ≤ y ∧ |y| ≤ 2 * K + δ := by
      intro i j y hy
      rcases hent i j with ⟨_, e2⟩ | ⟨x, y', _, e2, _, h⟩
      · have : A i j = pinf := e2
        rw [this] at hy; cases hy
      · have : A i j = fin y' := e2
        rw [this] at hy; injection hy with hy; rw [← hy]; exact h
    have hE : Env ar A D R (2 * K + δ) δ (2 * K + δ + 2 * δ) := by
      refine ⟨hA, ?_, ⟨by linarith, fun i j y hy => (hent' i j y hy).1,
        fun i j y hy => (hent' i j y hy).2.2⟩, rfl, hR⟩
      intro i j
      rcases hent i j with ⟨_, e2⟩ | ⟨x, y, _, e2, _⟩
      · exact Or.inl e2
      · exact Or.inr ⟨y, e2⟩
    obtain ⟨o, o1, o2, o3⟩ := hrm q hqe.1 hqe.2
    obtain ⟨hq, hr⟩ := root_ok hE (fun i j y hy => (hent' i j y hy).2.1)
    refine ⟨A, ⟨fin o, [root A]⟩, o, ?_, hE, hq, rfl, o2, ?_, fun τ => (hr τ).trans (hfeas τ), ?_⟩
    · simp only [init, h1, hlt, if_true, o1]
      rfl
    · have e : o = (o - q * n) + q * n := by ring
      have h4 := abs_add_le (o - q * n) (q * n)
      rw [← e, abs_mul, Nat.abs_cast] at h4
      have h5 := mul_le_mul_of_nonneg_right hqe.2 hn0
      have h6 : 0 ≤ (n : ℚ) * K := mul_nonneg hn0 hK
      have h7 : 0 ≤ (n : ℚ) * δ := mul_nonneg hn0 hδ
      linarith
    · intro τ hτ
      have h4 : |∑ i, ((A i (τ i)).val - ((C i (τ i)).val - q))| ≤ n * δ := by
        refine (Finset.abs_sum_le_sum_abs _ _).trans ?_
        have := Finset.sum_le_card_nsmul Finset.univ
          (fun i => |(A i (τ i)).val - ((C i (τ i)).val - q)|) δ (by
            intro i _
            rcases hent i (τ i) with ⟨e1, _⟩ | ⟨x, y, e1, e2, h, _⟩
            · have := hτ.2 i
              rw [e1] at this; exact absurd this not_isFin_pinf
            · have e2' : A i (τ i) = fin y := e2
              rw [e1, e2', val_fin, val_fin]; exact h)
        rw [Finset.card_univ, Fintype.card_fin, nsmul_eq_mul] at this
        exact this
      rw [Finset.sum_sub_distrib, Finset.sum_sub_distrib] at h4
      simp only [Finset.sum_const, Finset.card_univ, Fintype.card_fin, nsmul_eq_mul] at h4
      unfold total
      rw [abs_le] at h4 o3 ⊢
      constructor <;> linarith [h4.1, h4.2, o3.1, o3.2]
  · have hlt' : mn.lt (fin 0) = false := by simpa using hlt
    have hE : Env ar C D R (2 * K + δ) δ (2 * K + δ + 2 * δ) :=
      ⟨hA, hC, ⟨by linarith, hs.int, fun i j q hq => (hs.le i j q hq).trans (by linarith)⟩, rfl, hR⟩
    obtain ⟨hq, hr⟩ := root_ok hE (by
      intro i j q hq
      obtain ⟨a, ha, hle⟩ := h3 i j q hq
      rw [ha] at hlt'
      simp at hlt'
      linarith)
    refine ⟨C, ⟨fin 0, [root C]⟩, 0, ?_, hE, hq, rfl, ⟨0, by simp⟩, ?_, hr, ?_⟩
    · simp only [init, h1, hlt']
      rfl
    · rw [abs_zero]; exact mul_nonneg (by linarith) (by linarith)
    · intro τ _
      rw [_root_.add_zero, sub_self, abs_zero]
      exact mul_nonneg (by linarith) hδ

end Verif.MurtyF
