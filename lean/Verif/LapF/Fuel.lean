import Verif.LapF.Model
import Verif.Lap.Fuel

/-! # Fuel of the solver in rounded arithmetic -/

namespace Verif.LapF

open Verif.Lap

variable {n m : Nat}

theorem arrLoop_mono (A : Arith) (C : Cost n m) (pnf : Nat) : ∀ (f f' k nf : Nat) (free : List (Fin n))
    (s : St n m) (r : St n m × List (Fin n) × Nat), f ≤ f' →
    arrLoop A C pnf f k nf free s = some r → arrLoop A C pnf f' k nf free s = some r := by
  intro f
  induction f with
  | zero => intro f' k nf free s r _ e; simp [arrLoop] at e
  | succ f ih =>
    intro f' k nf free s r hf e
    obtain ⟨f', rfl⟩ : ∃ g, f' = g + 1 := ⟨f' - 1, by omega⟩
    have hf : f ≤ f' := by omega
    simp only [arrLoop] at e ⊢
    split at e
    · rename_i hk
      rw [if_pos hk]
      split at e
      · cases e
      · rename_i i hi
        split at e
        · cases e
        · exact ih _ _ _ _ _ _ hf e
        · exact ih _ _ _ _ _ _ hf e
        · split at e
          · rename_i hl
            rw [if_pos hl]
            exact ih _ _ _ _ _ _ hf e
          · cases e
    · rename_i hk
      rw [if_neg hk]
      exact e

theorem dijkstra_mono (A : Arith) (C : Cost n m) (v : Fin m → XR) (colsol : Fin m → Option (Fin n)) :
    ∀ (f f' : Nat) (s : Dij n m) (r : Dij n m × Fin m), f ≤ f' →
    dijkstra A C v colsol f s = some r → dijkstra A C v colsol f' s = some r := by
  intro f
  induction f with
  | zero => intro f' s r _ e; simp [dijkstra] at e
  | succ f ih =>
    intro f' s r hf e
    obtain ⟨f', rfl⟩ : ∃ g, f' = g + 1 := ⟨f' - 1, by omega⟩
    have hf : f ≤ f' := by omega
    simp only [dijkstra] at e ⊢
    split at e
    · cases e
    · exact e
    · split at e
      · cases e
      · exact e
      · exact ih _ _ _ hf e

theorem augment_mono (A : Arith) (C : Cost n m) {f f' : Nat} (hf : f ≤ f') (i : Fin n) {s r : St n m}
    (e : augment A C f i s = some r) : augment A C f' i s = some r := by
  simp only [augment] at e ⊢
  split at e
  · cases e
  · rename_i t x ht
    rw [dijkstra_mono A C s.v s.colsol f f' _ _ hf ht]
    simp only
    split at e
    · cases e
    · rename_i rs cs hr
      rw [Lap.flip_mono _ _ f f' _ _ _ _ hf hr]
      exact e

theorem augmentAll_mono (A : Arith) (C : Cost n m) {f f' : Nat} (hf : f ≤ f') : ∀ (l : List (Fin n))
    (s r : St n m), augmentAll A C f l s = some r → augmentAll A C f' l s = some r := by
  intro l
  induction l with
  | nil => intro s r e; exact e
  | cons i l ih =>
    intro s r e
    simp only [augmentAll, Option.bind_eq_some_iff] at e ⊢
    obtain ⟨s1, h1, h2⟩ := e
    exact ⟨s1, augment_mono A C hf i h1, ih _ _ h2⟩

theorem rlap_mono (A : Arith) (C : Cost n m) {f f' : Nat} (hf : f ≤ f') (u0 : Fin n → XR) (v0 : Fin m → XR)
    {r : Sol n m} (e : rlap A C f u0 v0 = some r) : rlap A C f' u0 v0 = some r := by
  simp only [rlap] at e ⊢
  split at e
  · cases e
  · rename_i s1 free1 nf1 h1
    rw [arrLoop_mono _ C _ f f' _ _ _ _ _ hf h1]
    simp only
    split at e
    · cases e
    · rename_i s2 free2 nf2 h2
      rw [arrLoop_mono _ C _ f f' _ _ _ _ _ hf h2]
      simp only [Option.map_eq_some_iff] at e ⊢
      obtain ⟨s3, h3, h4⟩ := e
      exact ⟨s3, augmentAll_mono A C hf _ _ _ h3, h4⟩

theorem lap_mono (A : Arith) (C : Cost n m) {f f' : Nat} (hf : f ≤ f') {r : Bool × Sol n m}
    (e : lap A C f = some r) : lap A C f' = some r := by
  simp only [lap] at e ⊢
  split at e
  · cases e
  · exact e
  · simp only [Option.map_eq_some_iff] at e ⊢
    obtain ⟨s, h1, h2⟩ := e
    exact ⟨s, rlap_mono A C hf _ _ h1, h2⟩

end Verif.LapF
