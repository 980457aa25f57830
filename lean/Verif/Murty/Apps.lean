import Verif.Murty.Props
import Mathlib.Data.Fintype.CardEmbedding
import Mathlib.Data.Nat.Factorial.BigOperators

/-!
# C96: the enumeration programs, and what an enumeration costs

`apps/murty.cpp` and `apps/murty2.cpp` draw from a `Murty` object until nothing is left, count the
draws and (the second) print them.  The second half counts the states in the queue and the calls of
`lap` that draws need.
-/

namespace Verif.Murty

open Verif.Lap XR

variable {n m : Nat}

/-! ## The programs -/

/-- The loop of `apps/murty2.cpp:29-32` (`apps/murty.cpp:33-35` is the same without the output): the
lines printed and the value of the `unsigned n`, which wraps around at 2³².  `k` bounds the
iterations. -/
def program (pick : List (Node n m) → Nat) (fuel : Nat) : Nat → State n m → Nat →
    Option (List ((Fin n → Option (Fin m)) × XR) × Nat)
  | 0, _, _ => none
  | k + 1, M, cnt =>
    match draw pick fuel M with
    | none => none
    | some (none, _) => some ([], cnt)
    | some (some line, M') =>
      (program pick fuel k M' ((cnt + 1) % 2 ^ 32)).map fun (ls, c) => (line :: ls, c)

theorem program_of_draws (pick : List (Node n m) → Nat) (fuel : Nat) :
    ∀ (L : List ((Fin n → Option (Fin m)) × XR)) (M : State n m) (cnt k : Nat), L.length < k →
      cnt < 2 ^ 32 →
      draws pick fuel (L.length + 1) M = some (L.map some ++ [none]) →
      program pick fuel k M cnt = some (L, (cnt + L.length) % 2 ^ 32) := by
  intro L
  induction L with
  | nil =>
    intro M cnt k hk hc h
    obtain ⟨k, rfl⟩ : ∃ j, k = j + 1 := ⟨k - 1, by simp at hk; omega⟩
    simp only [draws, List.length_nil] at h
    cases hd : draw pick fuel M with
    | none => simp [hd] at h
    | some p =>
      obtain ⟨x, M'⟩ := p
      simp only [hd, Option.map_some, Option.some.injEq, List.map_nil, List.nil_append,
        List.cons.injEq, and_true] at h
      subst h
      simp only [program, hd, List.length_nil, Nat.add_zero, Nat.mod_eq_of_lt hc]
  | cons a L ih =>
    intro M cnt k hk hc h
    obtain ⟨k, rfl⟩ : ∃ j, k = j + 1 := ⟨k - 1, by simp at hk; omega⟩
    rw [List.length_cons, draws] at h
    cases hd : draw pick fuel M with
    | none => simp [hd] at h
    | some p =>
      obtain ⟨x, M'⟩ := p
      simp only [hd, List.map_cons, List.cons_append] at h
      cases hr : draws pick fuel (L.length + 1) M' with
      | none => simp [hr] at h
      | some R =>
        simp only [hr, Option.map_some, Option.some.injEq, List.cons.injEq] at h
        obtain ⟨rfl, rfl⟩ := h
        have := ih M' ((cnt + 1) % 2 ^ 32) k (by simpa using hk) (Nat.mod_lt _ (by norm_num)) hr
        simp only [program, hd, this, Option.map_some, List.length_cons]
        congr 2
        omega

/-- The number of one-to-one assignments of `n` rows to `m` columns through `i ↦ j` does not depend
on `j`. -/
theorem card_through (i : Fin n) (j j' : Fin m) :
    (Finset.univ.filter fun τ : Fin n → Fin m => Function.Injective τ ∧ τ i = j).card =
      (Finset.univ.filter fun τ : Fin n → Fin m => Function.Injective τ ∧ τ i = j').card := by
  refine Finset.card_bij (fun τ _ => Equiv.swap j j' ∘ τ) ?_ ?_ ?_
  · intro τ hτ
    simp only [Finset.mem_filter, Finset.mem_univ, true_and] at hτ ⊢
    exact ⟨(Equiv.injective _).comp hτ.1, by simp [hτ.2]⟩
  · intro τ _ τ' _ h
    exact (Equiv.injective (Equiv.swap j j')).comp_left h
  · intro τ hτ
    simp only [Finset.mem_filter, Finset.mem_univ, true_and] at hτ
    refine ⟨Equiv.swap j j' ∘ τ, ?_, ?_⟩
    · simp only [Finset.mem_filter, Finset.mem_univ, true_and]
      exact ⟨(Equiv.injective _).comp hτ.1, by simp [hτ.2]⟩
    · funext l; simp

theorem card_inj : (Finset.univ.filter fun τ : Fin n → Fin m => Function.Injective τ).card =
    m.descFactorial n := by
  classical
  rw [← Fintype.card_subtype, Fintype.card_congr (Equiv.subtypeInjectiveEquivEmbedding _ _)]
  simp [Fintype.card_embedding_eq]

theorem card_through_mul (i : Fin n) (j : Fin m) :
    m * (Finset.univ.filter fun τ : Fin n → Fin m => Function.Injective τ ∧ τ i = j).card =
      m.descFactorial n := by
  have h : (Finset.univ.filter fun τ : Fin n → Fin m => Function.Injective τ).card =
      ∑ j', (Finset.univ.filter fun τ : Fin n → Fin m => Function.Injective τ ∧ τ i = j').card := by
    rw [Finset.card_eq_sum_card_fiberwise (f := fun τ : Fin n → Fin m => τ i) (t := Finset.univ)
      (fun _ _ => Finset.mem_univ _)]
    simp only [Finset.filter_filter]
  rw [← card_inj, h, Finset.sum_congr rfl fun j' _ => card_through i j' j]
  simp

/-- The control total: all assignments together use every entry equally often. -/
theorem sum_total (x : Fin n → Fin m → ℚ) :
    (m : ℚ) * ∑ τ ∈ Finset.univ.filter (fun τ : Fin n → Fin m => Function.Injective τ),
      ∑ i, x i (τ i) = (m.descFactorial n : ℚ) * ∑ i, ∑ j, x i j := by
  rw [Finset.sum_comm, Finset.mul_sum, Finset.mul_sum]
  refine Finset.sum_congr rfl fun i _ => ?_
  rw [← Finset.sum_fiberwise_of_maps_to (g := fun τ : Fin n → Fin m => τ i) (t := Finset.univ)
    (fun _ _ => Finset.mem_univ _), Finset.mul_sum, Finset.mul_sum]
  refine Finset.sum_congr rfl fun j _ => ?_
  rw [Finset.filter_filter]
  rw [Finset.sum_congr rfl (g := fun _ => x i j) (fun τ hτ => by
    rw [(Finset.mem_filter.1 hτ).2.2])]
  rw [Finset.sum_const, nsmul_eq_mul, ← mul_assoc]
  have := card_through_mul i j
  congr 1
  exact_mod_cast this

/-- C96: on a matrix of `n ≤ 30` rows and `m ≥ n` columns with finite entries the programs end.
They print `m!/(m-n)!` different lines, every one-to-one assignment once with the sum of its
entries, in an order of non-decreasing cost; the costs printed add up to `(m-1)!/(m-n)!` times the
sum of the matrix.  The number of draws printed is right modulo 2³². -/
theorem C96_programs (x : Fin n → Fin m → ℚ) (hn : 0 < n) (hn' : n ≤ 30) (hm : n ≤ m)
    {pick : List (Node n m) → Nat} (hp : PickOk pick) :
    ∃ M, init (fun i j => fin (x i j)) = some M ∧ ∃ F, ∀ fuel k, F ≤ fuel → F ≤ k →
      ∃ L : List ((Fin n → Fin m) × ℚ),
        program pick fuel k M 0 =
          some (L.map fun l => (fun i => some (l.1 i), fin l.2),
            (Nat.factorial m / Nat.factorial (m - n)) % 2 ^ 32) ∧
        L.length = Nat.factorial m / Nat.factorial (m - n) ∧
        (L.map Prod.fst).Nodup ∧
        (∀ τ, τ ∈ L.map Prod.fst ↔ Function.Injective τ) ∧
        (∀ l ∈ L, l.2 = ∑ i, x i (l.1 i)) ∧
        L.Pairwise (fun a b => a.2 ≤ b.2) ∧
        (m : ℚ) * (L.map Prod.snd).sum =
          (Nat.factorial m / Nat.factorial (m - n) : ℕ) * ∑ i, ∑ j, x i j := by
  classical
  have hC : CostOk (fun i j => fin (x i j)) := fun i j => Or.inr ⟨_, rfl⟩
  obtain ⟨M, h1, h2⟩ := murty_spec hC hn hn' (lt_of_lt_of_le hn hm) hp
  refine ⟨M, h1, ?_⟩
  set N := m.descFactorial n with hN
  have hNf : Nat.factorial m / Nat.factorial (m - n) = N := (Nat.descFactorial_eq_div hm).symm
  rw [hNf]
  obtain ⟨F, L, g1, g2, g3, g4, _, g6⟩ := h2 (N + 1)
  have hfeas : ∀ τ : Fin n → Fin m, Feasible (fun i j => fin (x i j)) τ ↔ Function.Injective τ :=
    fun τ => ⟨fun h => h.1, fun h => ⟨h, fun i => ⟨_, rfl⟩⟩⟩
  have hsub : L.toFinset ⊆ Finset.univ.filter fun τ : Fin n → Fin m => Function.Injective τ := by
    intro τ hτ
    simp only [Finset.mem_filter, Finset.mem_univ, true_and]
    exact (hfeas τ).1 (g3 τ (List.mem_toFinset.1 hτ))
  have hle : L.length ≤ N := by
    rw [← List.toFinset_card_of_nodup g2, hN, ← card_inj]
    exact Finset.card_le_card hsub
  have hall : ∀ τ, Feasible (fun i j => fin (x i j)) τ → τ ∈ L := by
    rcases g6 with h | h
    · omega
    · exact h.2
  have hset : L.toFinset = Finset.univ.filter fun τ : Fin n → Fin m => Function.Injective τ := by
    refine Finset.Subset.antisymm hsub ?_
    intro τ hτ
    exact List.mem_toFinset.2 (hall τ ((hfeas τ).2 (by simpa using hτ)))
  have hlen : L.length = N := by
    rw [← List.toFinset_card_of_nodup g2, hN, ← card_inj, hset]
  have htot : ∀ τ : Fin n → Fin m, total (fun i j => fin (x i j)) τ = ∑ i, x i (τ i) := fun τ => rfl
  refine ⟨max F (N + 1), fun fuel k hf hk => ⟨L.map fun τ => (τ, ∑ i, x i (τ i)), ?_⟩⟩
  have hfst : (L.map fun τ => (τ, ∑ i, x i (τ i))).map Prod.fst = L := by
    simp [List.map_map, Function.comp_def]
  refine ⟨?_, by simpa using hlen, by rw [hfst]; exact g2, ?_, ?_, ?_, ?_⟩
  · have hd := g1 fuel (le_trans (le_max_left _ _) hf)
    have e1 : N + 1 - L.length = 1 := by omega
    rw [e1] at hd
    have hk' : N + 1 ≤ k := le_trans (le_max_right _ _) hk
    have := program_of_draws pick fuel
      (L.map fun σ => ((fun i => some (σ i) : Fin n → Option (Fin m)), fin (∑ i, x i (σ i))))
      M 0 k (by simp; omega) (by norm_num) (by
        simp only [List.length_map, hlen, hd, List.map_map]
        rfl)
    rw [this]
    simp [hlen, List.map_map, Function.comp_def]
  · intro τ
    rw [hfst]
    exact ⟨fun h => (g3 τ h).1, fun h => hall τ ((hfeas τ).2 h)⟩
  · intro l hl
    obtain ⟨τ, _, rfl⟩ := List.mem_map.1 hl
    rfl
  · rw [List.pairwise_map]
    exact g4
  · rw [List.map_map]
    rw [← sum_total x, ← hset, List.sum_toFinset _ g2]
    rfl

/-- Two rows, three columns: six lines. -/
example : ((init (fun i j => fin ((![![1, 2, 3], ![4, 5, 7]] : Fin 2 → Fin 3 → ℚ) i j))).bind
      fun M => program firstBest 40 10 M 0).map (fun p => (p.1.map (·.2), p.2)) =
    some ([fin 6, fin 6, fin 7, fin 8, fin 8, fin 9], 6) := by
  decide +kernel

example := C96_programs (![![1, 2, 3], ![4, 5, 7]] : Fin 2 → Fin 3 → ℚ) (by decide) (by decide)
  (by decide) exists_pickOk.choose_spec

/-- C96, refuted part: the number printed need not be the number of draws.  With 13 rows and columns
and any finite entries the loop ends after 13! draws and prints 1932053504. -/
theorem C96_count_refuted (x : Fin 13 → Fin 13 → ℚ) {pick : List (Node 13 13) → Nat}
    (hp : PickOk pick) :
    ∃ M, init (fun i j => fin (x i j)) = some M ∧ ∃ F, ∀ fuel k, F ≤ fuel → F ≤ k →
      ∃ L, program pick fuel k M 0 = some (L, 1932053504) ∧ L.length = 6227020800 := by
  obtain ⟨M, h1, F, h2⟩ := C96_programs x (by decide) (by decide) (le_refl _) hp
  refine ⟨M, h1, F, fun fuel k hf hk => ?_⟩
  obtain ⟨L, h3, h4, _⟩ := h2 fuel k hf hk
  have e : Nat.factorial 13 / Nat.factorial (13 - 13) = 6227020800 := by decide +kernel
  rw [e] at h3 h4
  exact ⟨_, h3, by rw [List.length_map, h4]⟩

example := C96_count_refuted (fun i j => i * j - 5) exists_pickOk.choose_spec

/-! ## What draws cost -/

/-- `drawTop` (`murty.hpp:281-291`) with the number of calls of `solve`, each of which calls `lap`
once. -/
def drawTopN (pick : List (Node n m) → Nat) (fuel : Nat) :
    Nat → List (Node n m) → Option (Option (Node n m × List (Node n m)) × Nat)
  | 0, _ => none
  | k + 1, Q =>
    match Q[pick Q]? with
    | none => none
    | some s =>
      let Q' := Q.eraseIdx (pick Q)
      if s.solved then some (some (s, Q'), 0)
      else
        match solve fuel s with
        | none => none
        | some (s', ok) =>
          let Q'' := if ok then s' :: Q' else Q'
          if Q''.isEmpty then some (none, 1)
          else (drawTopN pick fuel k Q'').map fun p => (p.1, p.2 + 1)

/-- `draw` (`murty.hpp:271-326`) with the number of calls of `lap`. -/
def drawN (pick : List (Node n m) → Nat) (fuel : Nat) (M : State n m) :
    Option (Option ((Fin n → Option (Fin m)) × XR) × State n m × Nat) :=
  if M.queue.isEmpty then some (none, M, 0)
  else
    match drawTopN pick fuel (M.queue.length + 1) M.queue with
    | none => none
    | some (none, c) => some (none, { M with queue := [] }, c)
    | some (some (s, Q), c) =>
      match sortByDual s with
      | none => none
      | some order =>
        match parts [] order s with
        | none => none
        | some new =>
          some (some (s.sol, s.cost.add M.offset), { M with queue := new ++ Q }, c)

/-- `k` calls of `draw` (`murty.hpp:271`): their results, the object afterwards and the number of
calls of `lap` of all of them. -/
def drawsN (pick : List (Node n m) → Nat) (fuel : Nat) :
    Nat → State n m → Option (List (Option ((Fin n → Option (Fin m)) × XR)) × State n m × Nat)
  | 0, M => some ([], M, 0)
  | k + 1, M =>
    match drawN pick fuel M with
    | none => none
    | some (x, M', c) =>
      (drawsN pick fuel k M').map fun (l, M'', c') => (x :: l, M'', c + c')

theorem drawTopN_fst (pick : List (Node n m) → Nat) (fuel : Nat) : ∀ k Q,
    (drawTopN pick fuel k Q).map (·.1) = drawTop pick fuel k Q := by
  intro k
  induction k with
  | zero => intro Q; rfl
  | succ k ih =>
    intro Q
    simp only [drawTopN, drawTop]
    cases Q[pick Q]? with
    | none => rfl
    | some s =>
      simp only
      by_cases hs : s.solved = true
      · simp [hs]
      · simp only [hs]
        cases solve fuel s with
        | none => rfl
        | some p =>
          obtain ⟨s', ok⟩ := p
          simp only
          by_cases he : (if ok then s' :: Q.eraseIdx (pick Q) else Q.eraseIdx (pick Q)).isEmpty = true
          · simp [he]
          · simp only [he]
            rw [← ih]
            simp [Option.map_map, Function.comp_def]

theorem drawN_fst (pick : List (Node n m) → Nat) (fuel : Nat) (M : State n m) :
    (drawN pick fuel M).map (fun p => (p.1, p.2.1)) = draw pick fuel M := by
  unfold drawN draw
  by_cases he : M.queue.isEmpty = true
  · simp [he]
  · simp only [he]
    rw [← drawTopN_fst]
    cases drawTopN pick fuel (M.queue.length + 1) M.queue with
    | none => rfl
    | some p =>
      obtain ⟨o, c⟩ := p
      cases o with
      | none => rfl
      | some sq =>
        obtain ⟨s, Q⟩ := sq
        simp only [Option.map_some]
        cases sortByDual s with
        | none => rfl
        | some order =>
          simp only
          cases parts [] order s with
          | none => rfl
          | some new => rfl

/-- Counting changes nothing: the results are those of `draws`. -/
theorem drawsN_fst (pick : List (Node n m) → Nat) (fuel : Nat) : ∀ k M,
    (drawsN pick fuel k M).map (·.1) = draws pick fuel k M := by
  intro k
  induction k with
  | zero => intro M; rfl
  | succ k ih =>
    intro M
    simp only [drawsN, draws]
    rw [← drawN_fst]
    cases drawN pick fuel M with
    | none => rfl
    | some p =>
      obtain ⟨x, M', c⟩ := p
      simp only [Option.map_some]
      rw [← ih]
      simp [Option.map_map, Function.comp_def]

/-- The states that still have to be solved. -/
def unsolved (Q : List (Node n m)) : Nat := Q.countP fun s => !s.solved

theorem partitionWith_r {s s' : Node n m} {i j : Nat} (h : partitionWith s i j = some s') :
    s'.r ≤ s.r := by
  obtain ⟨r, c, C, u, v, cost, bound, b, sol, res, rmap, cmap⟩ := s
  cases r with
  | zero => simp [partitionWith] at h
  | succ r =>
    cases c with
    | zero => simp [partitionWith] at h
    | succ c =>
      simp only [partitionWith] at h
      by_cases hij : i < r + 1 ∧ j < c + 1
      · rw [dif_pos hij] at h
        obtain rfl := Option.some.inj h
        exact Nat.le_succ r
      · rw [dif_neg hij] at h
        cases h

theorem partitionWithout_r {s s' : Node n m} {i j : Nat} {d : XR}
    (h : partitionWithout s i j d = some s') : s'.r = s.r := by
  unfold partitionWithout at h
  by_cases hij : i < s.r ∧ j < s.c
  · rw [dif_pos hij] at h
    obtain rfl := Option.some.inj h
    rfl
  · rw [dif_neg hij] at h
    cases h

theorem parts_length {r c : Nat} : ∀ (ps before : List (DualEntry r c)) (node : Node n m) (L),
    parts before ps node = some L → L.length ≤ ps.length ∧ ∀ s ∈ L, s.r ≤ node.r := by
  intro ps
  induction ps with
  | nil =>
    intro before node L h
    obtain rfl := Option.some.inj h
    simp
  | cons p ps ih =>
    intro before node L h
    simp only [parts] at h
    cases hp : partitionIndex before p with
    | none => simp [hp] at h
    | some ij =>
      obtain ⟨i, j⟩ := ij
      simp only [hp] at h
      cases hw : partitionWith node i j with
      | none => simp [hw] at h
      | some node' =>
        simp only [hw] at h
        cases hr : parts (before ++ [p]) ps node' with
        | none => simp [hr] at h
        | some rest =>
          simp only [hr] at h
          obtain ⟨g1, g2⟩ := ih _ _ _ hr
          have hle := partitionWith_r hw
          by_cases hlt : p.1.lt XR.pinf = true
          · rw [if_pos hlt] at h
            cases ho : partitionWithout node i j p.1 with
            | none => simp [ho] at h
            | some o =>
              rw [ho] at h
              obtain rfl := Option.some.inj h
              refine ⟨by simpa using g1, ?_⟩
              intro s hs
              rcases List.mem_cons.1 hs with rfl | hs
              · exact (partitionWithout_r ho).le
              · exact (g2 s hs).trans hle
          · rw [if_neg hlt] at h
            obtain rfl := Option.some.inj h
            exact ⟨by simp only [List.length_cons]; omega, fun s hs => (g2 s hs).trans hle⟩

theorem duals_length (s : Node n m) : ∀ (is : List (Fin s.r)) l, duals s is = some l →
    l.length = is.length := by
  intro is
  induction is with
  | nil => intro l h; obtain rfl := Option.some.inj h; rfl
  | cons i is ih =>
    intro l h
    simp only [duals] at h
    cases hi : s.res i with
    | none => simp [hi] at h
    | some j =>
      cases hd : duals s is with
      | none => simp [hi, hd] at h
      | some l' =>
        simp only [hi, hd, Option.some.injEq] at h
        subst h
        simp [ih l' hd]

theorem sortByDual_length {s : Node n m} {l} (h : sortByDual s = some l) : l.length = s.r := by
  unfold sortByDual at h
  cases hd : duals s (List.finRange s.r) with
  | none => simp [hd] at h
  | some l' =>
    rw [hd] at h
    obtain rfl := Option.some.inj h
    rw [(sortDesc_perm l').length_eq, duals_length s _ l' hd, List.length_finRange]

theorem solve_r {fuel : Nat} {s s' : Node n m} {b : Bool} (h : solve fuel s = some (s', b)) :
    s'.r = s.r ∧ s'.solved = true := by
  unfold solve at h
  cases hl : lap s.C fuel with
  | none => simp [hl] at h
  | some p =>
    obtain ⟨ok, out⟩ := p
    rw [hl] at h
    cases ok with
    | false =>
      simp only [Option.some.injEq, Prod.mk.injEq] at h
      obtain ⟨rfl, -⟩ := h
      exact ⟨rfl, rfl⟩
    | true =>
      simp only at h
      cases hf : fill s.C out.rowsol s.rmap s.cmap (List.finRange s.r) s.sol s.bound with
      | none => simp [hf] at h
      | some q =>
        simp only [hf, Option.some.injEq, Prod.mk.injEq] at h
        obtain ⟨rfl, -⟩ := h
        exact ⟨rfl, rfl⟩

/-- The solving loop: it takes one state out, adds none, and calls `lap` only on states that were
not solved. -/
theorem drawTopN_spec (pick : List (Node n m) → Nat) (fuel : Nat) : ∀ k Q out c,
    (∀ s ∈ Q, s.r ≤ n) → drawTopN pick fuel k Q = some (out, c) →
      c ≤ unsolved Q ∧ ∀ s Q', out = some (s, Q') → s.r ≤ n ∧ (∀ x ∈ Q', x.r ≤ n) ∧
        Q'.length + 1 ≤ Q.length ∧ c + unsolved Q' ≤ unsolved Q := by
  intro k
  induction k with
  | zero => intro Q out c _ h; cases h
  | succ k ih =>
    intro Q out c hQ h
    simp only [drawTopN] at h
    cases hs : Q[pick Q]? with
    | none => simp [hs] at h
    | some s =>
      have hperm := eraseIdx_perm Q (pick Q) s hs
      have hlen : (Q.eraseIdx (pick Q)).length + 1 = Q.length := by
        rw [hperm.length_eq, List.length_cons]
      have hun : unsolved Q = unsolved (Q.eraseIdx (pick Q)) + (if s.solved then 0 else 1) := by
        unfold unsolved
        rw [hperm.countP_eq, List.countP_cons]
        cases s.solved <;> simp
      have hr : ∀ x ∈ s :: Q.eraseIdx (pick Q), x.r ≤ n :=
        fun x hx => hQ x (hperm.mem_iff.2 hx)
      simp only [hs] at h
      by_cases hsol : s.solved = true
      · rw [if_pos hsol] at h
        simp only [Option.some.injEq, Prod.mk.injEq] at h
        obtain ⟨rfl, rfl⟩ := h
        refine ⟨Nat.zero_le _, ?_⟩
        intro s' Q' he
        simp only [Option.some.injEq, Prod.mk.injEq] at he
        obtain ⟨rfl, rfl⟩ := he
        refine ⟨hr s List.mem_cons_self, fun x hx => hr x (List.mem_cons_of_mem _ hx), hlen.le, ?_⟩
        rw [hun]; omega
      · rw [if_neg hsol] at h hun
        cases hsv : solve fuel s with
        | none => simp [hsv] at h
        | some p =>
          obtain ⟨s', ok⟩ := p
          obtain ⟨hr', hsol'⟩ := solve_r hsv
          simp only [hsv] at h
          generalize hQ2 : (if ok then s' :: Q.eraseIdx (pick Q) else Q.eraseIdx (pick Q)) = Q2 at h
          have hun2 : unsolved Q2 = unsolved (Q.eraseIdx (pick Q)) := by
            subst hQ2
            cases ok
            · rfl
            · simp [unsolved, hsol']
          have hlen2 : Q2.length ≤ Q.length := by
            subst hQ2
            cases ok <;> simp <;> omega
          have hr2 : ∀ x ∈ Q2, x.r ≤ n := by
            subst hQ2
            intro x hx
            cases ok
            · exact hr x (List.mem_cons_of_mem _ hx)
            · rcases List.mem_cons.1 hx with rfl | hx
              · rw [hr']; exact hr s List.mem_cons_self
              · exact hr x (List.mem_cons_of_mem _ hx)
          by_cases he : Q2.isEmpty = true
          · rw [if_pos he] at h
            simp only [Option.some.injEq, Prod.mk.injEq] at h
            obtain ⟨rfl, rfl⟩ := h
            exact ⟨by omega, fun _ _ h => by cases h⟩
          · rw [if_neg he] at h
            cases hd : drawTopN pick fuel k Q2 with
            | none => simp [hd] at h
            | some p =>
              obtain ⟨out', c'⟩ := p
              simp only [hd, Option.map_some, Option.some.injEq, Prod.mk.injEq] at h
              obtain ⟨rfl, rfl⟩ := h
              obtain ⟨g1, g2⟩ := ih Q2 out' c' hr2 hd
              refine ⟨by omega, ?_⟩
              intro s'' Q' hout
              obtain ⟨k1, k2, k3, k4⟩ := g2 s'' Q' hout
              exact ⟨k1, k2, by omega, by omega⟩

/-- One draw: at most `n` states more in the queue for the one that is taken out. -/
theorem drawN_spec (pick : List (Node n m) → Nat) (fuel : Nat) {M M' : State n m} {out} {c : Nat}
    (hQ : ∀ s ∈ M.queue, s.r ≤ n) (h : drawN pick fuel M = some (out, M', c)) :
    (∀ s ∈ M'.queue, s.r ≤ n) ∧ M'.queue.length + (if out.isSome then 1 else 0) ≤
        M.queue.length + (if out.isSome then n else 0) ∧
      c ≤ unsolved M.queue ∧
      c + unsolved M'.queue ≤ unsolved M.queue + (if out.isSome then n else 0) := by
  unfold drawN at h
  by_cases he : M.queue.isEmpty = true
  · rw [if_pos he] at h
    simp only [Option.some.injEq, Prod.mk.injEq] at h
    obtain ⟨rfl, rfl, rfl⟩ := h
    exact ⟨hQ, by simp, by simp, by simp⟩
  · rw [if_neg he] at h
    cases hd : drawTopN pick fuel (M.queue.length + 1) M.queue with
    | none => simp [hd] at h
    | some p =>
      obtain ⟨o, c'⟩ := p
      obtain ⟨g1, g2⟩ := drawTopN_spec pick fuel _ _ _ _ hQ hd
      rw [hd] at h
      cases o with
      | none =>
        simp only [Option.some.injEq, Prod.mk.injEq] at h
        obtain ⟨rfl, rfl, rfl⟩ := h
        exact ⟨by simp, by simp, g1, by simpa [unsolved] using g1⟩
      | some sq =>
        obtain ⟨s, Q⟩ := sq
        obtain ⟨k1, k2, k3, k4⟩ := g2 s Q rfl
        simp only at h
        cases ho : sortByDual s with
        | none => simp [ho] at h
        | some order =>
          simp only [ho] at h
          cases hp : parts [] order s with
          | none => simp [hp] at h
          | some new =>
            simp only [hp, Option.some.injEq, Prod.mk.injEq] at h
            obtain ⟨rfl, rfl, rfl⟩ := h
            obtain ⟨l1, l2⟩ := parts_length _ _ _ _ hp
            rw [sortByDual_length ho] at l1
            refine ⟨?_, ?_, g1, ?_⟩
            · intro x hx
              rcases List.mem_append.1 hx with hx | hx
              · exact (l2 x hx).trans k1
              · exact k2 x hx
            · simp only [List.length_append, Option.isSome_some, if_true]
              omega
            · simp only [Option.isSome_some, if_true]
              have e : unsolved (new ++ Q) = unsolved new + unsolved Q := by
                simp [unsolved, List.countP_append]
              have e2 : unsolved new ≤ new.length := List.countP_le_length
              rw [e]
              omega

theorem drawsN_spec (pick : List (Node n m) → Nat) (fuel : Nat) : ∀ k {M M' : State n m} {R} {c : Nat},
    (∀ s ∈ M.queue, s.r ≤ n) → drawsN pick fuel k M = some (R, M', c) →
      M'.queue.length + R.countP (·.isSome) ≤ M.queue.length + R.countP (·.isSome) * n ∧
      c ≤ unsolved M.queue + (R.dropLast.countP (·.isSome)) * n := by
  intro k
  induction k with
  | zero =>
    intro M M' R c hQ h
    simp only [drawsN, Option.some.injEq, Prod.mk.injEq] at h
    obtain ⟨rfl, rfl, rfl⟩ := h
    simp
  | succ k ih =>
    intro M M' R c hQ h
    simp only [drawsN] at h
    cases hd : drawN pick fuel M with
    | none => simp [hd] at h
    | some p =>
      obtain ⟨x, M1, c1⟩ := p
      rw [hd] at h
      obtain ⟨g1, g2, g3, g4⟩ := drawN_spec pick fuel hQ hd
      simp only at h
      cases hr : drawsN pick fuel k M1 with
      | none => simp [hr] at h
      | some q =>
        obtain ⟨R1, M2, c2⟩ := q
        simp only [hr, Option.map_some, Option.some.injEq, Prod.mk.injEq] at h
        obtain ⟨rfl, rfl, rfl⟩ := h
        obtain ⟨k1, k2⟩ := ih g1 hr
        constructor
        · rw [List.countP_cons]
          cases hx : x.isSome
          · simp only [hx] at g2 ⊢
            simp only [Bool.false_eq_true, if_false, Nat.add_zero] at g2 ⊢
            omega
          · simp only [hx, if_true] at g2 ⊢
            rw [Nat.add_mul, Nat.one_mul]
            omega
        · cases R1 with
          | nil =>
            cases k with
            | zero =>
              simp only [drawsN, Option.some.injEq, Prod.mk.injEq] at hr
              simp only [List.dropLast_singleton, List.countP_nil, Nat.zero_mul]
              omega
            | succ k =>
              exfalso
              simp only [drawsN] at hr
              cases hd' : drawN pick fuel M1 with
              | none => simp [hd'] at hr
              | some p' =>
                simp only [hd'] at hr
                cases hr' : drawsN pick fuel k p'.2.1 with
                | none => simp [hr'] at hr
                | some q' => simp [hr'] at hr
          | cons y R1 =>
            rw [List.dropLast_cons_of_ne_nil (by simp), List.countP_cons]
            cases hx : x.isSome
            · simp only [hx] at g4 ⊢
              simp only [Bool.false_eq_true, if_false, Nat.add_zero] at g4 ⊢
              omega
            · simp only [hx, if_true] at g4 ⊢
              rw [Nat.add_mul, Nat.one_mul]
              omega

theorem init_queue {C : Cost n m} {M : State n m} (h : init C = some M) :
    M.queue.length = 1 ∧ (∀ s ∈ M.queue, s.r ≤ n) ∧ unsolved M.queue = 1 := by
  unfold init at h
  cases hm : minCoeff C with
  | none => simp [hm] at h
  | some mn =>
    simp only [hm] at h
    by_cases hlt : mn.lt (XR.fin 0) = true
    · rw [if_pos hlt] at h
      obtain rfl := Option.some.inj h
      exact ⟨rfl, by simp [root], rfl⟩
    · rw [if_neg hlt] at h
      obtain rfl := Option.some.inj h
      exact ⟨rfl, by simp [root], rfl⟩

/-- C96: what an enumeration costs.  For every matrix, also with entries that are infinite or not a
number, and every order in which the queue returns equal states: `k + 1` draws that return have
called `lap` at most `1 + k n` times, and with `s` the number of draws that found something, at most
`1 + s (n - 1)` matrices are in the queue. -/
theorem C96_effort {C : Cost n m} {M M' : State n m} (h : init C = some M)
    (pick : List (Node n m) → Nat) (fuel k : Nat) {R} {calls : Nat}
    (hR : drawsN pick fuel (k + 1) M = some (R, M', calls)) :
    draws pick fuel (k + 1) M = some R ∧ calls ≤ 1 + k * n ∧
      M'.queue.length ≤ 1 + R.countP (·.isSome) * (n - 1) := by
  have hf := drawsN_fst pick fuel (k + 1) M
  rw [hR] at hf
  obtain ⟨q1, q2, q3⟩ := init_queue h
  obtain ⟨g1, g2⟩ := drawsN_spec pick fuel (k + 1) q2 hR
  have hlen : R.length = k + 1 := by
    have : ∀ k (M M' : State n m) R c, drawsN pick fuel k M = some (R, M', c) → R.length = k := by
      intro k
      induction k with
      | zero =>
        intro M M' R c h
        simp only [drawsN, Option.some.injEq, Prod.mk.injEq] at h
        rw [← h.1]; rfl
      | succ k ih =>
        intro M M' R c h
        simp only [drawsN] at h
        cases hd : drawN pick fuel M with
        | none => simp [hd] at h
        | some p =>
          simp only [hd] at h
          cases hr : drawsN pick fuel k p.2.1 with
          | none => simp [hr] at h
          | some q =>
            simp only [hr, Option.map_some, Option.some.injEq, Prod.mk.injEq] at h
            rw [← h.1, List.length_cons, ih _ _ _ _ hr]
    exact this _ _ _ _ _ hR
  refine ⟨hf.symm, ?_, ?_⟩
  · have : R.dropLast.countP (·.isSome) ≤ k := by
      refine List.countP_le_length.trans ?_
      rw [List.length_dropLast, hlen]
      omega
    have := Nat.mul_le_mul_right n this
    omega
  · rw [q1] at g1
    cases n with
    | zero => simp at g1 ⊢; omega
    | succ n =>
      simp only [Nat.add_sub_cancel]
      rw [Nat.mul_add, Nat.mul_one] at g1
      omega

/-- Three draws of the 2×3 example: three calls of `lap`, of five allowed, and one matrix in the
queue, of four allowed. -/
example : ∃ M R M', init exM = some M ∧ drawsN firstBest 40 3 M = some (R, M', 3) ∧
    R.map (·.isSome) = [true, true, true] ∧ M'.queue.length = 1 ∧ 3 ≤ 1 + 2 * 2 ∧
    M'.queue.length ≤ 1 + R.countP (·.isSome) * (2 - 1) := by
  have h : (((init exM).bind fun M => drawsN firstBest 40 3 M).map
      (fun p => (p.1.map (·.isSome), p.2.1.queue.length, p.2.2))) =
      some ([true, true, true], 1, 3) := by decide +kernel
  cases hM : init exM with
  | none => simp [hM] at h
  | some M =>
    rw [hM] at h
    cases hR : drawsN firstBest 40 3 M with
    | none => simp [hR] at h
    | some p =>
      obtain ⟨R, M', c⟩ := p
      simp only [Option.bind_some, hR, Option.map_some, Option.some.injEq, Prod.mk.injEq] at h
      obtain ⟨h1, h2, rfl⟩ := h
      have := C96_effort hM firstBest 40 2 hR
      exact ⟨M, R, M', rfl, hR, h1, h2, this.2.1, this.2.2⟩

end Verif.Murty
