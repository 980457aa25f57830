import Verif.HypF.Round

/-! # What the hypothesis loop computes in `double` arithmetic -/

namespace Verif.HypF

open Verif.Lap Verif.LapF Verif.Murty XR

variable {M N : Nat}

/-- The loop `cluster.hpp:91-106` on the list of the results of `draw`. -/
def consume (ex : ℚ → XR) (wlim nmax : ℚ) :
    List (Option ((Fin M → Option (Fin (N + 2 * M))) × XR)) → Acc M N → Option (Acc M N)
  | [], _ => none
  | none :: _, a => some a
  | some (sol, cost) :: rest, a =>
    match a.add (weight ex cost) sol with
    | none => none
    | some a' =>
      if stops wlim nmax (weight ex cost) a' then some a' else consume ex wlim nmax rest a'

theorem loop_eq (pick : List (Node M (N + 2 * M)) → Nat) (fuel : Nat) (ex : ℚ → XR)
    (wlim nmax : ℚ) (k : Nat) : ∀ (S : State M (N + 2 * M)) (a : Acc M N) l,
      MurtyF.draws b64 pick fuel k S = some l →
      loop pick fuel ex wlim nmax k S a = consume ex wlim nmax l a := by
  induction k with
  | zero =>
    intro S a l h
    have := Option.some.inj h
    rw [← this]; rfl
  | succ k ih =>
    intro S a l h
    unfold MurtyF.draws at h
    cases hd : MurtyF.draw b64 pick fuel S with
    | none => rw [hd] at h; cases h
    | some y =>
      obtain ⟨x, S'⟩ := y
      rw [hd] at h
      obtain ⟨l', hl', rfl⟩ := Option.map_eq_some_iff.1 h
      cases x with
      | none => simp only [loop, hd, consume]
      | some sc =>
        obtain ⟨sol, cost⟩ := sc
        simp only [loop, hd, consume]
        cases ha : a.add (weight ex cost) sol with
        | none => rfl
        | some a' =>
          simp only
          rw [ih S' a' l' hl']

theorem loop_mono (pick : List (Node M (N + 2 * M)) → Nat) {fuel fuel' : Nat} (hf : fuel ≤ fuel')
    (ex : ℚ → XR) (wlim nmax : ℚ) (k : Nat) : ∀ (k' : Nat), k ≤ k' →
      ∀ (S : State M (N + 2 * M)) (a x : Acc M N),
      loop pick fuel ex wlim nmax k S a = some x →
      loop pick fuel' ex wlim nmax k' S a = some x := by
  induction k with
  | zero => intro k' _ S a x h; cases h
  | succ k ih =>
    intro k' hk S a x h
    obtain ⟨k', rfl⟩ := Nat.exists_eq_succ_of_ne_zero (n := k') (by omega)
    unfold loop at h ⊢
    cases hd : MurtyF.draw b64 pick fuel S with
    | none => rw [hd] at h; cases h
    | some y =>
      obtain ⟨o, S'⟩ := y
      rw [hd] at h
      rw [MurtyF.draw_mono b64 pick hf hd]
      cases o with
      | none => exact h
      | some sc =>
        obtain ⟨sol, cost⟩ := sc
        simp only at h ⊢
        cases ha : a.add (weight ex cost) sol with
        | none => rw [ha] at h; cases h
        | some a' =>
          rw [ha] at h
          simp only at h ⊢
          by_cases hs : stops wlim nmax (weight ex cost) a' = true
          · rw [if_pos hs] at h ⊢; exact h
          · rw [if_neg hs] at h ⊢; exact ih k' (by omega) S' a' x h

/-! ## The accumulator -/

/-- A sum from left to right (`cluster.hpp:93`). -/
def fsX (ws : List XR) : XR := ws.foldl b64.add (fin 0)

theorem fsX_append (ws : List XR) (w : XR) : fsX (ws ++ [w]) = b64.add (fsX ws) w := by
  simp [fsX]

theorem fsX_fin (ws : List ℚ) : fsX (ws.map fin) = fs ws := by
  unfold fsX fs
  rw [List.foldl_map]

/-- The accumulator after the hypotheses `L` with weights `w`. -/
structure Repr (w : (Fin M → Fin (N + 2 * M)) × ℚ → XR)
    (L : List ((Fin M → Fin (N + 2 * M)) × ℚ)) (a : Acc M N) : Prop where
  n : a.n = L.length
  wsum : a.wsum = fsX (L.map w)
  R : ∀ i j, a.R i j = fsX ((L.filter fun p => Hyp.target i (p.1 i) = some j).map w)

/-- The condition of `break` after the weights `W`. -/
def StopAt (wlim nmax : ℚ) (W : List XR) : Bool :=
  (div64 (W.getLastD (fin 0)) (fsX W)).lt (fin wlim) || decide (nmax ≤ (W.length : ℚ))

theorem add_repr {w : (Fin M → Fin (N + 2 * M)) × ℚ → XR}
    {L : List ((Fin M → Fin (N + 2 * M)) × ℚ)} {a : Acc M N} (h : Repr w L a)
    (p : (Fin M → Fin (N + 2 * M)) × ℚ) :
    ∃ a', a.add (w p) (fun i => some (p.1 i)) = some a' ∧ Repr w (L ++ [p]) a' := by
  refine ⟨_, by unfold Acc.add; rw [if_pos (by simp)], ?_, ?_, ?_⟩
  · simp [h.n]
  · simp only [List.map_append, List.map_cons, List.map_nil, fsX_append, h.wsum]
  · intro i j
    simp only [Option.bind_some, List.filter_append]
    by_cases hj : Hyp.target i (p.1 i) = some j
    · rw [if_pos hj, h.R, List.filter_cons_of_pos (by simp [hj]), List.filter_nil,
        List.map_append, List.map_cons, List.map_nil, fsX_append]
    · rw [if_neg hj, h.R, List.filter_cons_of_neg (by simp [hj]), List.filter_nil, List.append_nil]

theorem stops_repr {w : (Fin M → Fin (N + 2 * M)) × ℚ → XR}
    {L : List ((Fin M → Fin (N + 2 * M)) × ℚ)} {a : Acc M N} {p}
    (h : Repr w (L ++ [p]) a) (wlim nmax : ℚ) :
    stops wlim nmax (w p) a = StopAt wlim nmax ((L ++ [p]).map w) := by
  unfold stops StopAt
  rw [h.wsum, h.n]
  simp

/-- The loop on the draws `L` followed by failures: it processes a prefix of `L`. -/
theorem consume_spec (ex : ℚ → XR) (wlim nmax : ℚ)
    (l : List (Option ((Fin M → Option (Fin (N + 2 * M))) × XR)))
    (L : List ((Fin M → Fin (N + 2 * M)) × ℚ)) : ∀ (P0 : List ((Fin M → Fin (N + 2 * M)) × ℚ))
      (a : Acc M N), Repr (fun p => ex p.2) P0 a →
      ∃ P a', P <+: L ∧
        consume ex wlim nmax (L.map (fun p => some (fun i => some (p.1 i), fin p.2)) ++ none :: l) a =
          some a' ∧
        Repr (fun p => ex p.2) (P0 ++ P) a' ∧
        (∀ q, P0.length ≤ q → q + 1 < (P0 ++ P).length →
          StopAt wlim nmax (((P0 ++ P).take (q + 1)).map fun p => ex p.2) = false) ∧
        (P = L ∨ (P ≠ [] ∧ StopAt wlim nmax ((P0 ++ P).map fun p => ex p.2) = true)) := by
  induction L with
  | nil =>
    intro P0 a h
    refine ⟨[], a, List.prefix_refl _, rfl, by simpa using h, ?_, Or.inl rfl⟩
    intro q h1 h2
    simp at h2
    omega
  | cons p L ih =>
    intro P0 a h
    obtain ⟨a1, ha1, hR1⟩ := add_repr h p
    have ha1' : a.add (weight ex (fin p.2)) (fun i => some (p.1 i)) = some a1 := ha1
    have hstop : stops wlim nmax (weight ex (fin p.2)) a1 = _ := stops_repr hR1 wlim nmax
    by_cases hs : StopAt wlim nmax ((P0 ++ [p]).map fun p => ex p.2) = true
    · refine ⟨[p], a1, by simp, ?_, hR1, ?_, Or.inr ⟨by simp, hs⟩⟩
      · simp only [List.map_cons, List.cons_append, consume]
        rw [ha1']
        exact if_pos (hstop.trans hs)
      · intro q h1 h2
        simp at h2
        omega
    · obtain ⟨P, a', g1, g2, g3, g4, g5⟩ := ih (P0 ++ [p]) a1 hR1
      have happ : P0 ++ [p] ++ P = P0 ++ p :: P := by simp
      rw [happ] at g3 g4 g5
      refine ⟨p :: P, a', List.cons_prefix_cons.2 ⟨rfl, g1⟩, ?_, g3, ?_, ?_⟩
      · simp only [List.map_cons, List.cons_append, consume]
        rw [ha1']
        exact (if_neg fun h => hs (hstop.symm.trans h)).trans g2
      · intro q h1 h2
        rcases Nat.lt_or_ge P0.length q with h3 | h3
        · exact g4 q (by simp; omega) h2
        · have : q = P0.length := by omega
          subst this
          have : (P0 ++ p :: P).take (P0.length + 1) = P0 ++ [p] := by
            rw [← happ, List.take_append_of_le_length (by simp)]
            simp
          rw [this]; simpa using hs
      · rcases g5 with h1 | ⟨_, h1⟩
        · exact Or.inl (by rw [h1])
        · exact Or.inr ⟨by simp, h1⟩

/-- The hypothesis loop, given what is known of the draws: errors `c` of the costs and `s` of the
order. -/
theorem hypotheses_core {C : Cost M (N + 2 * M)} {pick : List (Node M (N + 2 * M)) → Nat}
    {c s : ℚ} {S : State M (N + 2 * M)} (h1 : MurtyF.init b64 MurtyF.mul64 C = some S)
    (h2 : ∀ k, ∃ (F : Nat) (L : List ((Fin M → Fin (N + 2 * M)) × ℚ)),
      (∀ fuel, F ≤ fuel → MurtyF.draws b64 pick fuel k S =
        some (L.map (fun p => some (fun i => some (p.1 i), fin p.2)) ++
          List.replicate (k - L.length) none)) ∧
      (L.map Prod.fst).Nodup ∧ (∀ p ∈ L, Feasible C p.1) ∧
      (∀ p ∈ L, |p.2 - total C p.1| ≤ c) ∧
      L.Pairwise (fun p q => total C p.1 ≤ total C q.1 + s) ∧
      (∀ p ∈ L, ∀ τ, Feasible C τ → τ ∉ L.map Prod.fst → total C p.1 ≤ total C τ + s) ∧
      (L.length = k ∨ (L.length < k ∧ ∀ τ, Feasible C τ → τ ∈ L.map Prod.fst)))
    (ex : ℚ → XR) (wlim nmax : ℚ) :
    ∃ (F : Nat) (P : List ((Fin M → Fin (N + 2 * M)) × ℚ)) (a : Acc M N),
      (∀ fuel, F ≤ fuel → hypotheses pick fuel ex wlim nmax C = some a) ∧
      Repr (fun p => ex p.2) P a ∧ (P.map Prod.fst).Nodup ∧ (∀ p ∈ P, Feasible C p.1) ∧
      (∀ p ∈ P, |p.2 - total C p.1| ≤ c) ∧
      P.Pairwise (fun p q => total C p.1 ≤ total C q.1 + s) ∧
      (∀ p ∈ P, ∀ τ, Feasible C τ → τ ∉ P.map Prod.fst → total C p.1 ≤ total C τ + s) ∧
      (∀ q, q + 1 < P.length →
          StopAt wlim nmax ((P.take (q + 1)).map fun p => ex p.2) = false) ∧
      ((P ≠ [] ∧ StopAt wlim nmax (P.map fun p => ex p.2) = true) ∨
        ∀ τ, Feasible C τ → τ ∈ P.map Prod.fst) := by
  classical
  obtain ⟨F, L, g1, g2, g3, g4, g5, g6, g7⟩ :=
    h2 ((Finset.univ.filter fun τ => Feasible C τ).card + 1)
  have hlen : L.length ≤ (Finset.univ.filter fun τ => Feasible C τ).card := by
    have h3 : (L.map Prod.fst).toFinset ⊆ Finset.univ.filter fun τ => Feasible C τ := by
      intro τ hτ
      obtain ⟨p, hp, rfl⟩ := List.mem_map.1 (List.mem_toFinset.1 hτ)
      simp [g3 p hp]
    have h4 := Finset.card_le_card h3
    rw [List.toFinset_card_of_nodup g2, List.length_map] at h4
    exact h4
  have hall : ∀ τ, Feasible C τ → τ ∈ L.map Prod.fst := by
    rcases g7 with h | ⟨_, h⟩
    · omega
    · exact h
  obtain ⟨d, hd⟩ : ∃ d, (Finset.univ.filter fun τ => Feasible C τ).card + 1 - L.length = d + 1 :=
    ⟨(Finset.univ.filter fun τ => Feasible C τ).card - L.length, by omega⟩
  rw [hd, List.replicate_succ] at g1
  obtain ⟨P, a, e1, e2, e3, e4, e5⟩ :=
    consume_spec ex wlim nmax (List.replicate d none) L [] Acc.zero ⟨rfl, rfl, fun i j => rfl⟩
  rw [List.nil_append] at e3 e4 e5
  have hsub : ∀ p ∈ P, p ∈ L := fun p h => e1.subset h
  refine ⟨max F ((Finset.univ.filter fun τ => Feasible C τ).card + 1), P, a, ?_, e3, ?_,
    fun p h => g3 p (hsub p h), fun p h => g4 p (hsub p h), g5.sublist e1.sublist, ?_,
    fun q => e4 q (Nat.zero_le _), ?_⟩
  · intro fuel hf
    have h5 := loop_eq pick F ex wlim nmax _ S Acc.zero _ (g1 F (le_refl _))
    rw [e2] at h5
    simp only [hypotheses, h1]
    exact loop_mono pick (le_trans (le_max_left _ _) hf) ex wlim nmax _ fuel
      (le_trans (le_max_right _ _) hf) S Acc.zero a h5
  · exact g2.sublist (e1.sublist.map _)
  · intro p hp τ hτ hnot
    obtain ⟨Q, rfl⟩ := e1
    by_cases hτL : τ ∈ (P ++ Q).map Prod.fst
    · rw [List.map_append, List.mem_append] at hτL
      obtain ⟨q, hq, rfl⟩ := List.mem_map.1 (hτL.resolve_left hnot)
      exact (List.pairwise_append.1 g5).2.2 p hp q hq
    · exact g6 p (hsub p hp) τ hτ hτL
  · rcases e5 with h | h
    · exact Or.inr (h ▸ hall)
    · exact Or.inl h

/-- The hypothesis loop in `double` arithmetic: it terminates, and its variables are rounded sums
over distinct assignments of nearly known cost. -/
theorem hypotheses_spec {C : Cost M (N + 2 * M)} {K : ℚ} (hC : Doubles C K) (hK : 0 ≤ K)
    (hM0 : 0 < M) (hM : M ≤ 30) (hm' : ((N + 2 * M : Nat) : ℚ) ≤ 2 ^ 40)
    (hr : (30 * ((N + 2 * M : Nat) : ℚ) + 6 * M + 60) * K ≤ 2 ^ 1022)
    {pick : List (Node M (N + 2 * M)) → Nat} (hp : PickOk pick) (ex : ℚ → XR) (wlim nmax : ℚ) :
    ∃ (F : Nat) (P : List ((Fin M → Fin (N + 2 * M)) × ℚ)) (a : Acc M N),
      (∀ fuel, F ≤ fuel → hypotheses pick fuel ex wlim nmax C = some a) ∧
      Repr (fun p => ex p.2) P a ∧ (P.map Prod.fst).Nodup ∧ (∀ p ∈ P, Feasible C p.1) ∧
      (∀ p ∈ P, |p.2 - total C p.1| ≤ (2 * M + 2) * MurtyF.unit M (N + 2 * M) K) ∧
      P.Pairwise (fun p q => total C p.1 ≤ total C q.1 +
        (2 * M * slackBound M (MurtyF.unit M (N + 2 * M) K) +
          (6 * M + 6) * MurtyF.unit M (N + 2 * M) K)) ∧
      (∀ p ∈ P, ∀ τ, Feasible C τ → τ ∉ P.map Prod.fst → total C p.1 ≤ total C τ +
        (2 * M * slackBound M (MurtyF.unit M (N + 2 * M) K) +
          (6 * M + 6) * MurtyF.unit M (N + 2 * M) K)) ∧
      (∀ q, q + 1 < P.length →
          StopAt wlim nmax ((P.take (q + 1)).map fun p => ex p.2) = false) ∧
      ((P ≠ [] ∧ StopAt wlim nmax (P.map fun p => ex p.2) = true) ∨
        ∀ τ, Feasible C τ → τ ∈ P.map Prod.fst) := by
  obtain ⟨S, h1, h2⟩ := MurtyF.double_spec hC hK hM0 hM (by omega : 0 < N + 2 * M) hm' hr hp
  exact hypotheses_core h1 h2 ex wlim nmax

/-- The same for matrices with few significant bits: costs and order are exact. -/
theorem hypotheses_exact {C : Cost M (N + 2 * M)} {K : ℚ} {b : Nat} (hK : 0 ≤ K) (hb : b ≤ 1074)
    (hC : ∀ i j, C i j = pinf ∨ ∃ z : ℤ, C i j = fin (z / 2 ^ b) ∧ |(z : ℚ)| / 2 ^ b ≤ K)
    (hr : (20 * ((N + 2 * M : Nat) : ℚ) + 4 * M + 40) * K * 2 ^ b ≤ 2 ^ 52) (hM0 : 0 < M)
    (hM : M ≤ 30) {pick : List (Node M (N + 2 * M)) → Nat} (hp : PickOk pick) (ex : ℚ → XR)
    (wlim nmax : ℚ) :
    ∃ (F : Nat) (P : List ((Fin M → Fin (N + 2 * M)) × ℚ)) (a : Acc M N),
      (∀ fuel, F ≤ fuel → hypotheses pick fuel ex wlim nmax C = some a) ∧
      Repr (fun p => ex p.2) P a ∧ (P.map Prod.fst).Nodup ∧ (∀ p ∈ P, Feasible C p.1) ∧
      (∀ p ∈ P, p.2 = total C p.1) ∧
      P.Pairwise (fun p q => total C p.1 ≤ total C q.1) ∧
      (∀ p ∈ P, ∀ τ, Feasible C τ → τ ∉ P.map Prod.fst → total C p.1 ≤ total C τ) ∧
      (∀ q, q + 1 < P.length →
          StopAt wlim nmax ((P.take (q + 1)).map fun p => ex p.2) = false) ∧
      ((P ≠ [] ∧ StopAt wlim nmax (P.map fun p => ex p.2) = true) ∨
        ∀ τ, Feasible C τ → τ ∈ P.map Prod.fst) := by
  obtain ⟨S, h1, h2⟩ := MurtyF.exact_spec hK hb hC hr hM0 hM (by omega : 0 < N + 2 * M) hp
  obtain ⟨F, P, a, g1, g2, g3, g4, g5, g6, g7, g8⟩ := hypotheses_core (c := 0) (s := 0) h1 (by
    intro k
    obtain ⟨F, L, e1, e2, e3, e4, e5⟩ := h2 k
    refine ⟨F, L, e1, e2, e3, fun p hp => ?_, by simpa using e5⟩
    rw [e4 p hp, sub_self, abs_zero]) ex wlim nmax
  refine ⟨F, P, a, g1, g2, g3, g4, fun p hp => ?_, by simpa using g6, by simpa using g7, g8⟩
  have := abs_nonpos_iff.1 (g5 p hp)
  linarith

end Verif.HypF
