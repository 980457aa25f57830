import Verif.Murty.Parts
import Mathlib.Data.Fintype.Pi

/-! # Drawing -/

namespace Verif.Murty

open Verif.Lap XR

variable {n m : Nat}

/-- `pick` gives the position of an element of highest priority of a non-empty queue
(`std::priority_queue::top`; ties are broken in an unspecified way). -/
def PickOk (pick : List (Node n m) → Nat) : Prop :=
  ∀ Q, Q ≠ [] → ∃ s, Q[pick Q]? = some s ∧ ∀ x ∈ Q, worse s x = false

/-- Invariant of the queue. -/
structure QOk (A : Cost n m) (Q : List (Node n m)) : Prop where
  full : ∀ s ∈ Q, Full A s
  disj : Q.Pairwise (Disj A)

/-- The assignments not drawn yet. -/
def Rem (A : Cost n m) (Q : List (Node n m)) (τ : Fin n → Fin m) : Prop :=
  ∃ s ∈ Q, Sols A s τ

theorem disj_symm (A : Cost n m) : ∀ {a b : Node n m}, Disj A a b → Disj A b a :=
  fun h τ h' => h τ ⟨h'.2, h'.1⟩

theorem QOk.perm {A : Cost n m} {Q Q' : List (Node n m)} (h : QOk A Q) (p : Q.Perm Q') :
    QOk A Q' :=
  ⟨fun s hs => h.full s (p.mem_iff.2 hs), (p.pairwise_iff (disj_symm A)).1 h.disj⟩

theorem rem_perm {A : Cost n m} {Q Q' : List (Node n m)} (p : Q.Perm Q') (τ : Fin n → Fin m) :
    Rem A Q τ ↔ Rem A Q' τ := by
  unfold Rem
  constructor
  · rintro ⟨s, hs, h⟩; exact ⟨s, p.mem_iff.1 hs, h⟩
  · rintro ⟨s, hs, h⟩; exact ⟨s, p.mem_iff.2 hs, h⟩

theorem rem_cons {A : Cost n m} (s : Node n m) (Q : List (Node n m)) (τ : Fin n → Fin m) :
    Rem A (s :: Q) τ ↔ Sols A s τ ∨ Rem A Q τ := by
  unfold Rem
  simp only [List.mem_cons, exists_eq_or_imp]

theorem rem_append {A : Cost n m} (Q Q' : List (Node n m)) (τ : Fin n → Fin m) :
    Rem A (Q ++ Q') τ ↔ Rem A Q τ ∨ Rem A Q' τ := by
  unfold Rem
  simp only [List.mem_append, or_and_right, exists_or]

theorem eraseIdx_perm {α} (l : List α) (i : Nat) (a : α) (h : l[i]? = some a) :
    l.Perm (a :: l.eraseIdx i) := by
  obtain ⟨h1, h2⟩ := List.getElem?_eq_some_iff.1 h
  rw [← h2]
  exact (List.getElem_cons_eraseIdx_perm h1).symm

/-- Replacing the first element by one with the same assignments. -/
theorem QOk.replace {A : Cost n m} {s s' : Node n m} {Q : List (Node n m)} (h : QOk A (s :: Q))
    (h1 : Full A s') (h2 : ∀ τ, Sols A s' τ ↔ Sols A s τ) : QOk A (s' :: Q) := by
  have hd := List.pairwise_cons.1 h.disj
  refine ⟨?_, List.Pairwise.cons ?_ hd.2⟩
  · intro x hx
    rcases List.mem_cons.1 hx with rfl | hx
    · exact h1
    · exact h.full x (List.mem_cons_of_mem _ hx)
  · intro x hx τ h3
    exact hd.1 x hx τ ⟨(h2 τ).1 h3.1, h3.2⟩

theorem QOk.tail {A : Cost n m} {s : Node n m} {Q : List (Node n m)} (h : QOk A (s :: Q)) :
    QOk A Q :=
  ⟨fun x hx => h.full x (List.mem_cons_of_mem _ hx), (List.pairwise_cons.1 h.disj).2⟩

/-- The loop that solves the top of the queue. -/
theorem drawTop_spec {A : Cost n m} (hn : n ≤ 30) {pick : List (Node n m) → Nat}
    (hp : PickOk pick) (k : Nat) :
    ∀ Q, QOk A Q → Q ≠ [] → Q.countP (fun s => !s.solved) < k →
      ∃ F out, (∀ fuel, F ≤ fuel → drawTop pick fuel k Q = some out) ∧
        (out = none → ∀ τ, ¬ Rem A Q τ) ∧
        (∀ s Q', out = some (s, Q') → s.solved = true ∧ QOk A (s :: Q') ∧
          (∀ τ, Rem A (s :: Q') τ ↔ Rem A Q τ) ∧ ∀ x ∈ Q', worse s x = false) := by
  induction k with
  | zero => intro Q _ _ h; omega
  | succ k ih =>
    intro Q hQ hne hc
    obtain ⟨s, hs, hbest⟩ := hp Q hne
    have hperm := eraseIdx_perm Q (pick Q) s hs
    have hQ' := hQ.perm hperm
    by_cases hsol : s.solved = true
    · refine ⟨0, some (s, Q.eraseIdx (pick Q)), ?_, by simp, ?_⟩
      · intro fuel _
        simp only [drawTop, hs, hsol, if_true]
      · intro s' Q' heq
        simp only [Option.some.injEq, Prod.mk.injEq] at heq
        obtain ⟨rfl, rfl⟩ := heq
        refine ⟨hsol, hQ', fun τ => (rem_perm hperm τ).symm, ?_⟩
        intro x hx
        exact hbest x (hperm.mem_iff.2 (List.mem_cons_of_mem _ hx))
    · have hsol' : s.solved = false := by simpa using hsol
      obtain ⟨F1, s', b, hrun, hfalse, htrue⟩ :=
        solve_spec (hQ.full s (hperm.mem_iff.2 List.mem_cons_self)).ok hn
      have hcount : (Q.eraseIdx (pick Q)).countP (fun s => !s.solved) < k := by
        rw [hperm.countP_eq, List.countP_cons_of_pos (by simp [hsol'])] at hc
        omega
      cases b with
      | false =>
        have hnone := hfalse rfl
        by_cases hemp : Q.eraseIdx (pick Q) = []
        · refine ⟨F1, none, ?_, ?_, by simp⟩
          · intro fuel hf
            simp only [drawTop, hs, hsol', hrun fuel hf, hemp]
            simp
          · intro _ τ hτ
            rw [rem_perm hperm, rem_cons, hemp] at hτ
            rcases hτ with h | ⟨_, h, _⟩
            · exact hnone τ h
            · simp at h
        · obtain ⟨F2, out, hrun2, h1, h2⟩ := ih _ hQ'.tail hemp hcount
          have hrem : ∀ τ, Rem A (Q.eraseIdx (pick Q)) τ ↔ Rem A Q τ := by
            intro τ
            rw [rem_perm hperm, rem_cons]
            exact ⟨Or.inr, fun h => h.resolve_left (hnone τ)⟩
          refine ⟨max F1 F2, out, ?_, ?_, ?_⟩
          · intro fuel hf
            have := hrun2 fuel (le_trans (le_max_right _ _) hf)
            simp only [drawTop, hs, hsol', hrun fuel (le_trans (le_max_left _ _) hf)]
            simp [hemp, this]
          · intro ho τ hτ
            exact h1 ho τ ((hrem τ).2 hτ)
          · intro s2 Q2 ho
            obtain ⟨h3, h4, h5, h6⟩ := h2 s2 Q2 ho
            exact ⟨h3, h4, fun τ => (h5 τ).trans (hrem τ), h6⟩
      | true =>
        obtain ⟨hfull, hsolved, hsols⟩ := htrue rfl
        obtain ⟨F2, out, hrun2, h1, h2⟩ := ih (s' :: Q.eraseIdx (pick Q))
          (hQ'.replace hfull hsols) (by simp)
          (by rw [List.countP_cons_of_neg (by simp [hsolved])]; exact hcount)
        have hrem : ∀ τ, Rem A (s' :: Q.eraseIdx (pick Q)) τ ↔ Rem A Q τ := by
          intro τ
          rw [rem_perm hperm, rem_cons, rem_cons, hsols]
        refine ⟨max F1 F2, out, ?_, ?_, ?_⟩
        · intro fuel hf
          have := hrun2 fuel (le_trans (le_max_right _ _) hf)
          simp only [drawTop, hs, hsol', hrun fuel (le_trans (le_max_left _ _) hf)]
          simp [this]
        · intro ho τ hτ
          exact h1 ho τ ((hrem τ).2 hτ)
        · intro s2 Q2 ho
          obtain ⟨h3, h4, h5, h6⟩ := h2 s2 Q2 ho
          exact ⟨h3, h4, fun τ => (h5 τ).trans (hrem τ), h6⟩

theorem not_worse {s x : Node n m} {a b : ℚ} (hs : s.cost = fin a) (hx : x.cost = fin b)
    (h : worse s x = false) : a ≤ b := by
  unfold worse at h
  rw [hs, hx] at h
  by_contra hlt
  rw [not_le] at hlt
  simp [hlt] at h

/-- One draw. -/
theorem draw_spec {A : Cost n m} (hn : n ≤ 30) {pick : List (Node n m) → Nat} (hp : PickOk pick)
    {M : State n m} (hQ : QOk A M.queue) {o : ℚ} (ho : M.offset = fin o) :
    ∃ F out M', (∀ fuel, F ≤ fuel → draw pick fuel M = some (out, M')) ∧ QOk A M'.queue ∧
      M'.offset = fin o ∧
      ((out = none ∧ (∀ τ, ¬ Rem A M.queue τ) ∧ M'.queue = []) ∨
       ∃ σ, out = some (fun k => some (σ k), fin (total A σ + o)) ∧ Rem A M.queue σ ∧
        (∀ τ, Rem A M.queue τ → total A σ ≤ total A τ) ∧
        ∀ τ, Rem A M'.queue τ ↔ Rem A M.queue τ ∧ τ ≠ σ) := by
  by_cases hemp : M.queue = []
  · refine ⟨0, none, M, ?_, hQ, ho, Or.inl ⟨rfl, ?_, hemp⟩⟩
    · intro fuel _
      simp [draw, hemp]
    · rintro τ ⟨s, hs, _⟩
      rw [hemp] at hs; simp at hs
  · obtain ⟨F, out, hrun, hnone, hsome⟩ := drawTop_spec hn hp (M.queue.length + 1) M.queue hQ hemp
      (Nat.lt_succ_of_le List.countP_le_length)
    have hne : M.queue.isEmpty = false := by simp [hemp]
    cases out with
    | none =>
      refine ⟨F, none, { M with queue := [] }, ?_, ⟨by simp, List.Pairwise.nil⟩, ho,
        Or.inl ⟨rfl, hnone rfl, rfl⟩⟩
      intro fuel hf
      simp [draw, hne, hrun fuel hf]
    | some sq =>
      obtain ⟨s, Q'⟩ := sq
      obtain ⟨hsolved, hQ', hrem, hbest⟩ := hsome s Q' rfl
      have hfull := hQ'.full s List.mem_cons_self
      obtain ⟨σ, ρ, hS⟩ := hfull.solved hsolved
      obtain ⟨order, ho1, ho2, ho3, ho4⟩ := sortByDual_spec s ρ hS.res
      obtain ⟨new, hn1, hn2, hn3, hn4⟩ := parts_spec hfull.ok hS order [] s id id
        ⟨hfull.ok, rfl, rfl, strictMono_id, strictMono_id, by simp, by simp, fun _ => rfl,
          fun _ => rfl, by simp⟩ ho2 ho3 ho4
      have hd := List.pairwise_cons.1 hQ'.disj
      have hnew : ∀ τ, Rem A (new ++ Q') τ ↔ Rem A M.queue τ ∧ τ ≠ σ := by
        intro τ
        rw [← hrem, rem_cons, rem_append]
        have : Rem A new τ ↔ Sols A s τ ∧ τ ≠ σ := hn4 τ
        rw [this]
        constructor
        · rintro (⟨h1, h2⟩ | h)
          · exact ⟨Or.inl h1, h2⟩
          · refine ⟨Or.inr h, ?_⟩
            rintro rfl
            obtain ⟨x, hx, hx'⟩ := h
            exact hd.1 x hx τ ⟨hS.mem, hx'⟩
        · rintro ⟨h1 | h1, h2⟩
          · exact Or.inl ⟨h1, h2⟩
          · exact Or.inr h1
      refine ⟨F, some (s.sol, s.cost.add M.offset), { M with queue := new ++ Q' }, ?_, ?_, ho,
        Or.inr ⟨σ, ?_, ?_, ?_, hnew⟩⟩
      · intro fuel hf
        simp only [draw, hne, hrun fuel hf, ho1, hn1]
        rfl
      · refine ⟨?_, ?_⟩
        · intro x hx
          rcases List.mem_append.1 hx with h | h
          · exact hn2 x h
          · exact hQ'.full x (List.mem_cons_of_mem _ h)
        · refine List.pairwise_append.2 ⟨hn3, hd.2, ?_⟩
          intro a ha b hb τ hab
          have := (hn4 τ).1 ⟨a, ha, hab.1⟩
          exact hd.1 b hb τ ⟨this.1, hab.2⟩
      · rw [hS.cost, ho, add_fin_fin]
        congr 2
        funext k
        exact hS.sol k
      · rw [← hrem]
        exact ⟨s, List.mem_cons_self, hS.mem⟩
      · intro τ hτ
        rw [← hrem, rem_cons] at hτ
        rcases hτ with h | ⟨x, hx, hx'⟩
        · exact hS.best τ h
        · obtain ⟨c, hc, hlow⟩ := (hQ'.full x (List.mem_cons_of_mem _ hx)).low
          exact (not_worse hS.cost hc (hbest x hx)).trans (hlow τ hx')

/-- Draws from an empty queue. -/
theorem draws_empty (pick : List (Node n m) → Nat) (fuel k : Nat) (M : State n m)
    (h : M.queue = []) : draws pick fuel k M = some (List.replicate k none) := by
  induction k with
  | zero => rfl
  | succ k ih =>
    have : draw pick fuel M = some (none, M) := by simp [draw, h]
    simp only [draws, this, ih, Option.map_some, List.replicate_succ]

/-- Any number of draws. -/
theorem draws_spec {A : Cost n m} (hn : n ≤ 30) {pick : List (Node n m) → Nat} (hp : PickOk pick)
    {o : ℚ} (k : Nat) : ∀ M : State n m, QOk A M.queue → M.offset = fin o →
      ∃ (F : Nat) (L : List (Fin n → Fin m)),
        (∀ fuel, F ≤ fuel → draws pick fuel k M =
          some (L.map (fun σ => some (fun i => some (σ i), fin (total A σ + o))) ++
            List.replicate (k - L.length) none)) ∧
        L.Nodup ∧ (∀ σ ∈ L, Rem A M.queue σ) ∧
        L.Pairwise (fun σ τ => total A σ ≤ total A τ) ∧
        (∀ σ ∈ L, ∀ τ, Rem A M.queue τ → τ ∉ L → total A σ ≤ total A τ) ∧
        (L.length = k ∨ (L.length < k ∧ ∀ τ, Rem A M.queue τ → τ ∈ L)) := by
  induction k with
  | zero =>
    intro M _ _
    exact ⟨0, [], fun _ _ => rfl, List.nodup_nil, by simp, List.Pairwise.nil, by simp, Or.inl rfl⟩
  | succ k ih =>
    intro M hQ ho
    obtain ⟨F1, out, M', hrun, hQ', ho', hcase⟩ := draw_spec hn hp hQ ho
    rcases hcase with ⟨rfl, hno, hemp⟩ | ⟨σ, rfl, hmem, hbest, hrem⟩
    · refine ⟨F1, [], fun fuel hf => by
          simp [draws, hrun fuel hf, draws_empty pick fuel k M' hemp, List.replicate_succ],
        List.nodup_nil, by simp,
        List.Pairwise.nil, by simp, Or.inr ⟨Nat.succ_pos _, fun τ h => absurd h (hno τ)⟩⟩
    · obtain ⟨F2, L, h1, h2, h3, h4, h5, h6⟩ := ih M' hQ' ho'
      refine ⟨max F1 F2, σ :: L, ?_, ?_, ?_, ?_, ?_, ?_⟩
      · intro fuel hf
        simp only [draws, hrun fuel (le_trans (le_max_left _ _) hf),
          h1 fuel (le_trans (le_max_right _ _) hf), Option.map_some, List.map_cons,
          List.cons_append, List.length_cons, Nat.add_sub_add_right]
      · refine List.nodup_cons.2 ⟨?_, h2⟩
        intro h
        exact ((hrem σ).1 (h3 σ h)).2 rfl
      · intro x hx
        rcases List.mem_cons.1 hx with rfl | hx
        · exact hmem
        · exact ((hrem x).1 (h3 x hx)).1
      · refine List.Pairwise.cons ?_ h4
        intro x hx
        exact hbest x ((hrem x).1 (h3 x hx)).1
      · intro x hx τ hτ hnot
        rw [List.mem_cons, not_or] at hnot
        rcases List.mem_cons.1 hx with rfl | hx
        · exact hbest τ hτ
        · exact h5 x hx τ ((hrem τ).2 ⟨hτ, hnot.1⟩) hnot.2
      · rcases h6 with h6 | ⟨h6, h7⟩
        · left; simp [h6]
        · right
          refine ⟨by simp only [List.length_cons]; omega, ?_⟩
          intro τ hτ
          by_cases he : τ = σ
          · rw [he]; exact List.mem_cons_self
          · exact List.mem_cons_of_mem _ (h7 τ ((hrem τ).2 ⟨hτ, he⟩))

/-! ## Construction -/

theorem root_ok {A : Cost n m} (hA : CostOk A) (hpos : ∀ i j q, A i j = fin q → 0 ≤ q) :
    QOk A [root A] ∧ ∀ τ, Rem A [root A] τ ↔ Feasible A τ := by
  have hs : ∀ τ, Sols A (root A) τ ↔ Feasible A τ := by
    intro τ
    constructor
    · rintro ⟨h1, _, h3⟩
      refine ⟨h1, fun a => ?_⟩
      obtain ⟨b, hb, hf⟩ := h3 a
      have hb' : τ a = b := hb
      rw [hb']; exact hf
    · rintro ⟨h1, h2⟩
      exact ⟨h1, fun k hk => absurd ⟨k, rfl⟩ hk, fun a => ⟨τ a, rfl, h2 a⟩⟩
  refine ⟨⟨?_, List.pairwise_singleton _ _⟩, ?_⟩
  · intro s h
    rw [List.mem_singleton.1 h]
    refine ⟨⟨Function.injective_id, Function.injective_id, hA, fun _ _ _ => rfl,
      fun k hk => absurd ⟨k, rfl⟩ hk, fun k _ hk => absurd ⟨k, rfl⟩ hk, ⟨0, rfl, ?_⟩, le_refl _⟩,
      ⟨0, rfl, ?_⟩, fun h => by cases h⟩
    · intro τ _
      rw [_root_.zero_add]; rfl
    · intro τ hτ
      have hf := (hs τ).1 hτ
      apply Finset.sum_nonneg
      intro i _
      obtain ⟨q, hq⟩ := hf.2 i
      rw [hq]; exact hpos i _ q hq
  · intro τ
    rw [rem_cons, hs]
    constructor
    · rintro (h | ⟨_, h, _⟩)
      · exact h
      · simp at h
    · exact Or.inl

theorem foldl_min (l : List XR) : ∀ x, IsC x → (∀ y ∈ l, IsC y) →
    let out := l.foldl (fun a b => if b.lt a then b else a) x
    IsC out ∧ Le out x ∧ (∀ y ∈ l, Le out y) := by
  induction l with
  | nil => intro x hx _; exact ⟨hx, Le.refl hx, by simp⟩
  | cons y l ih =>
    intro x hx hl
    have hy := hl y List.mem_cons_self
    simp only [List.foldl_cons]
    have key : IsC (if y.lt x then y else x) ∧ Le (if y.lt x then y else x) x ∧
        Le (if y.lt x then y else x) y := by
      by_cases h : y.lt x = true
      · rw [if_pos h]
        refine ⟨hy, ?_, Le.refl hy⟩
        rcases Le.total hy hx with h' | h'
        · exact h'
        · exact absurd h' ((lt_iff_not_le hy hx).1 h)
      · rw [if_neg h]
        refine ⟨hx, Le.refl hx, ?_⟩
        by_contra hn
        exact h ((lt_iff_not_le hy hx).2 hn)
    obtain ⟨h1, h2, h3⟩ := ih _ key.1 (fun z hz => hl z (List.mem_cons_of_mem _ hz))
    refine ⟨h1, h2.trans key.2.1, ?_⟩
    intro z hz
    rcases List.mem_cons.1 hz with rfl | hz
    · exact h2.trans key.2.2
    · exact h3 z hz

theorem minCoeff_spec {C : Cost n m} (hC : CostOk C) (hn : 0 < n) (hm : 0 < m) :
    ∃ mn, minCoeff C = some mn ∧ IsC mn ∧ ∀ i j, Le mn (C i j) := by
  have hmem : ∀ x, x ∈ ((List.finRange n).flatMap fun i => (List.finRange m).map (C i)) ↔
      ∃ i j, C i j = x := by
    intro x
    simp [List.mem_flatMap, List.mem_map]
  unfold minCoeff
  generalize hl : ((List.finRange n).flatMap fun i => (List.finRange m).map (C i)) = l at hmem
  cases l with
  | nil =>
    have := (hmem (C ⟨0, hn⟩ ⟨0, hm⟩)).2 ⟨_, _, rfl⟩
    simp at this
  | cons x xs =>
    have hIsC : ∀ y ∈ x :: xs, IsC y := by
      intro y hy
      obtain ⟨i, j, rfl⟩ := (hmem y).1 hy
      exact hC i j
    obtain ⟨h1, h2, h3⟩ := foldl_min xs x (hIsC x List.mem_cons_self)
      (fun y hy => hIsC y (List.mem_cons_of_mem _ hy))
    refine ⟨_, rfl, h1, ?_⟩
    intro i j
    rcases List.mem_cons.1 ((hmem (C i j)).2 ⟨i, j, rfl⟩) with h | h
    · rw [h]; exact h2
    · exact h3 _ h

/-- The constructor: a shifted matrix with the same feasible assignments, whose totals differ by
the offset. -/
theorem init_spec {C : Cost n m} (hC : CostOk C) (hn : 0 < n) (hm : 0 < m) :
    ∃ (A : Cost n m) (M : State n m) (o : ℚ), init C = some M ∧ QOk A M.queue ∧
      M.offset = fin o ∧ (∀ τ, Rem A M.queue τ ↔ Feasible C τ) ∧
      ∀ τ, Feasible C τ → total A τ + o = total C τ := by
  obtain ⟨mn, h1, h2, h3⟩ := minCoeff_spec hC hn hm
  by_cases hlt : mn.lt (fin 0) = true
  · obtain ⟨q, rfl⟩ : ∃ q, mn = fin q := by
      rcases h2 with rfl | ⟨q, rfl⟩
      · simp at hlt
      · exact ⟨q, rfl⟩
    have hent : ∀ i j, IsC ((C i j).sub (fin q)) ∧ (IsFin ((C i j).sub (fin q)) ↔ IsFin (C i j)) ∧
        ((∀ x, (C i j).sub (fin q) = fin x → 0 ≤ x)) ∧
        (IsFin (C i j) → ((C i j).sub (fin q)).val = (C i j).val - q) := by
      intro i j
      rcases hC i j with e | ⟨x, e⟩ <;> rw [e]
      · exact ⟨Or.inl rfl, by simp, by simp, by simp⟩
      · refine ⟨Or.inr ⟨_, rfl⟩, by simp [isFin_fin], ?_, by simp⟩
        intro y hy
        injection hy with hy
        obtain ⟨a, ha, hle⟩ := h3 i j x e
        injection ha with ha
        linarith
    set A : Cost n m := fun i j => (C i j).sub (fin q) with hA
    have hfeas : ∀ τ, Feasible A τ ↔ Feasible C τ := by
      intro τ
      unfold Feasible
      refine and_congr Iff.rfl (forall_congr' fun i => ?_)
      exact (hent i (τ i)).2.1
    obtain ⟨hq, hr⟩ := root_ok (A := A) (fun i j => (hent i j).1) (fun i j => (hent i j).2.2.1)
    refine ⟨A, ⟨fin (q * n), [root A]⟩, q * n, ?_, hq, rfl, fun τ => (hr τ).trans (hfeas τ), ?_⟩
    · simp only [init, h1, hlt, if_true]
      rfl
    · intro τ hτ
      have : total A τ = ∑ i, ((C i (τ i)).val - q) :=
        Finset.sum_congr rfl fun i _ => (hent i (τ i)).2.2.2 (hτ.2 i)
      rw [this, Finset.sum_sub_distrib]
      simp only [Finset.sum_const, Finset.card_univ, Fintype.card_fin, nsmul_eq_mul, total]
      ring
  · have hlt' : mn.lt (fin 0) = false := by simpa using hlt
    obtain ⟨hq, hr⟩ := root_ok (A := C) hC (by
      intro i j q hq
      obtain ⟨a, ha, hle⟩ := h3 i j q hq
      rw [ha] at hlt'
      simp at hlt'
      exact hlt'.trans hle)
    refine ⟨C, ⟨fin 0, [root C]⟩, 0, ?_, hq, rfl, hr, fun τ _ => _root_.add_zero _⟩
    simp only [init, h1, hlt']
    rfl

end Verif.Murty
