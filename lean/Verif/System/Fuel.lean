import Verif.Tracker.Model
import Verif.Lap.Fuel

/-!
# Fuel

The loops of the assignment solver, of Murty's algorithm and of the hypotheses are given fuel.
More fuel does not change a result that is there: a run of the tracker that is defined has one
outcome, whatever the fuel.
-/

namespace Verif.Murty

open Verif.Lap

variable {n m : Nat}

theorem solve_mono {f f' : Nat} (hf : f ≤ f') {s : Node n m} {r : Node n m × Bool}
    (e : solve f s = some r) : solve f' s = some r := by
  simp only [solve] at e ⊢
  split at e
  · cases e
  · rename_i out h
    rw [lap_mono s.C hf h]
    exact e
  · rename_i out h
    rw [lap_mono s.C hf h]
    exact e

theorem drawTop_mono (pick : List (Node n m) → Nat) {f f' : Nat} (hf : f ≤ f') : ∀ (k : Nat)
    (Q : List (Node n m)) (r : Option (Node n m × List (Node n m))),
    drawTop pick f k Q = some r → drawTop pick f' k Q = some r := by
  intro k
  induction k with
  | zero => intro Q r e; simp [drawTop] at e
  | succ k ih =>
    intro Q r e
    simp only [drawTop] at e ⊢
    split at e
    · cases e
    · rename_i s hs
      split at e
      · rename_i h
        rw [if_pos h]
        exact e
      · rename_i h
        rw [if_neg h]
        split at e
        · cases e
        · rename_i s' ok hok
          rw [solve_mono hf hok]
          simp only
          generalize (if ok = true then s' :: Q.eraseIdx (pick Q) else Q.eraseIdx (pick Q)) = Q''
            at e ⊢
          split at e
          · rename_i h'
            rw [if_pos h']
            exact e
          · rename_i h'
            rw [if_neg h']
            exact ih _ _ e

theorem draw_mono (pick : List (Node n m) → Nat) {f f' : Nat} (hf : f ≤ f') {M : State n m}
    {r : Option ((Fin n → Option (Fin m)) × XR) × State n m}
    (e : draw pick f M = some r) : draw pick f' M = some r := by
  simp only [draw] at e ⊢
  split at e
  · rename_i h
    rw [if_pos h]
    exact e
  · rename_i h
    rw [if_neg h]
    split at e
    · cases e
    · rename_i h1
      rw [drawTop_mono pick hf _ _ _ h1]
      exact e
    · rename_i s Q h1
      rw [drawTop_mono pick hf _ _ _ h1]
      exact e

end Verif.Murty

namespace Verif.Hyp

open Verif.Lap Verif.Murty

variable {M N : Nat}

theorem loop_mono (pick : List (Node M (N + 2 * M)) → Nat) (wt : ℚ → ℝ) (wlim nmax : ℝ)
    {f f' : Nat} (hf : f ≤ f') : ∀ (k k' : Nat) (S : State M (N + 2 * M)) (a r : Acc M N), k ≤ k' →
    loop pick f wt wlim nmax k S a = some r → loop pick f' wt wlim nmax k' S a = some r := by
  intro k
  induction k with
  | zero => intro k' S a r _ e; simp [loop] at e
  | succ k ih =>
    intro k' S a r hk e
    obtain ⟨k', rfl⟩ : ∃ g, k' = g + 1 := ⟨k' - 1, by omega⟩
    have hk : k ≤ k' := by omega
    simp only [loop] at e ⊢
    split at e
    · cases e
    · rename_i h
      rw [draw_mono pick hf h]
      exact e
    · rename_i sol cost S' h
      rw [draw_mono pick hf h]
      simp only
      split at e
      · cases e
      · rename_i w hw
        split at e
        · cases e
        · rename_i a' ha
          split at e
          · rename_i hc
            rw [if_pos hc]
            exact e
          · rename_i hc
            rw [if_neg hc]
            exact ih _ _ _ _ hk e

theorem hypotheses_mono (pick : List (Node M (N + 2 * M)) → Nat) (wt : ℚ → ℝ) (wlim nmax : ℝ)
    {f f' : Nat} (hf : f ≤ f') {C : Cost M (N + 2 * M)} {r : Acc M N}
    (e : hypotheses pick f wt wlim nmax C = some r) :
    hypotheses pick f' wt wlim nmax C = some r := by
  simp only [hypotheses] at e ⊢
  split at e
  · cases e
  · exact loop_mono pick wt wlim nmax hf _ _ _ _ _ hf e

end Verif.Hyp

namespace Verif.Tracker

open Verif.Cluster (Cl)
open Verif.Hyp Verif.Lap Verif.Murty

variable {P R O : Type}

theorem compute_mono {E : Env P R O} {S : Sensor P R} {prm : Params}
    {pick : ∀ r c, List (Node r c) → Nat} {wt : ℚ → ℝ} {f f' : Nat} (hf : f ≤ f')
    {ts : List (Nat × Tgt P)} {rs : List R} {v : Comp P R}
    (e : compute E S prm pick f wt ts rs = some v) : compute E S prm pick f' wt ts rs = some v := by
  unfold compute at e ⊢
  simp only at e ⊢
  split at e
  · rename_i h
    rw [if_pos h]
    exact e
  · rename_i h
    rw [if_neg h]
    split at e
    · cases e
    · rename_i a ha
      rw [hypotheses_mono _ _ _ _ hf ha]
      exact e

theorem clStep_mono {E : Env P R O} {S : Sensor P R} {prm : Params}
    {pick : ∀ r c, List (Node r c) → Nat} {wt : ℚ → ℝ} {f f' : Nat} (hf : f ≤ f') {cls : List Cl}
    {i : Nat} {g r : Cfg P R} (e : clStep E S prm pick f wt cls i g = some r) :
    clStep E S prm pick f' wt cls i g = some r := by
  unfold clStep at e ⊢
  cases hc : cls[i]? with
  | none => simp [hc] at e
  | some c =>
    simp only [hc] at e ⊢
    split at e
    · exact e
    · split at e
      · cases e
      · rename_i ts hts
        split at e
        · cases e
        · rename_i v hv
          rw [compute_mono hf hv]
          exact e
    · exact e
    · cases e

theorem clRun_mono {E : Env P R O} {S : Sensor P R} {prm : Params}
    {pick : ∀ r c, List (Node r c) → Nat} {wt : ℚ → ℝ} {f f' : Nat} (hf : f ≤ f') {cls : List Cl} :
    ∀ (l : List Nat) (g r : Cfg P R), clRun E S prm pick f wt cls l g = some r →
      clRun E S prm pick f' wt cls l g = some r := by
  intro l
  induction l with
  | nil => intro g r e; exact e
  | cons i l ih =>
    intro g r e
    simp only [clRun] at e ⊢
    split at e
    · cases e
    · rename_i g' hg
      rw [clStep_mono hf hg]
      exact ih _ _ e

theorem correct_mono {E : Env P R O} {S : Sensor P R} {prm : Params} {ch : Choices} {f f' : Nat}
    (hf : f ≤ f') {scan : List (Rep R)} {dflt : Rep R} {s : St P} {r : St P × (Nat → Rep R)}
    (e : correct E S prm ch f scan dflt s = some r) :
    correct E S prm ch f' scan dflt s = some r := by
  unfold correct at e ⊢
  split at e
  · cases e
  · rename_i cls s1 rcid hp
    split at e
    · cases e
    · rename_i g hg
      rw [clRun_mono hf _ _ _ hg]
      exact e

theorem step_mono {E : Env P R O} {prm : Params} {f f' : Nat} (hf : f ≤ f') {s s' : St P}
    {c : Call P R} (e : step E prm f s c = some s') : step E prm f' s c = some s' := by
  cases c with
  | predict m ord => exact e
  | correct S ch scan dflt =>
    simp only [step, Option.map_eq_some_iff] at e ⊢
    obtain ⟨r, h1, h2⟩ := e
    exact ⟨r, correct_mono hf h1, h2⟩

/-- More fuel does not change the outcome of a history. -/
theorem run_mono {E : Env P R O} {prm : Params} {f f' : Nat} (hf : f ≤ f') :
    ∀ (l : List (Call P R)) (s s' : St P), run E prm f l s = some s' → run E prm f' l s = some s' := by
  intro l
  induction l with
  | nil => intro s s' e; exact e
  | cons c l ih =>
    intro s s' e
    simp only [run] at e ⊢
    split at e
    · cases e
    · rename_i s1 h1
      rw [step_mono hf h1]
      exact ih _ _ e

/-- Two runs of the same history that are both defined have the same outcome, whatever the fuel. -/
theorem run_fuel {E : Env P R O} {prm : Params} {f f' : Nat} {l : List (Call P R)} {s s1 s2 : St P}
    (e1 : run E prm f l s = some s1) (e2 : run E prm f' l s = some s2) : s1 = s2 := by
  have h1 := run_mono (le_max_left f f') l s s1 e1
  have h2 := run_mono (le_max_right f f') l s s2 e2
  rw [h1] at h2
  exact Option.some.inj h2

end Verif.Tracker
