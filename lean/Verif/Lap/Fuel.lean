import Verif.Lap.Model

/-! # Fuel of the assignment solver: more fuel does not change a result that is there -/

namespace Verif.Lap

variable {n m : Nat}

theorem arrLoop_mono (fu : FindUmins m) (C : Cost n m) (pnf : Nat) : ∀ (f f' k nf : Nat) (free : List (Fin n))
    (s : St n m) (r : St n m × List (Fin n) × Nat), f ≤ f' →
    arrLoop fu C pnf f k nf free s = some r → arrLoop fu C pnf f' k nf free s = some r := by
  intro f
  induction f with
  | zero => intro f' k nf free s r _ e; simp [arrLoop] at e
  | succ f ih =>
    intro f' k nf free s r hf e
    obtain ⟨f', rfl⟩ : ∃ g, f' = g + 1 := ⟨f' - 1, by omega⟩
    have hf : f ≤ f' := by omega
    simp only [arrLoop] at e ⊢
    split at e
    · rename_i hk
      rw [if_pos hk]
      split at e
      · cases e
      · rename_i i hi
        split at e
        · cases e
        · exact ih _ _ _ _ _ _ hf e
        · exact ih _ _ _ _ _ _ hf e
        · split at e
          · rename_i hl
            rw [if_pos hl]
            exact ih _ _ _ _ _ _ hf e
          · cases e
    · rename_i hk
      rw [if_neg hk]
      exact e

theorem dijkstra_mono (C : Cost n m) (v : Fin m → XR) (colsol : Fin m → Option (Fin n)) :
    ∀ (f f' : Nat) (s : Dij n m) (r : Dij n m × Fin m), f ≤ f' →
    dijkstra C v colsol f s = some r → dijkstra C v colsol f' s = some r := by
  intro f
  induction f with
  | zero => intro f' s r _ e; simp [dijkstra] at e
  | succ f ih =>
    intro f' s r hf e
    obtain ⟨f', rfl⟩ : ∃ g, f' = g + 1 := ⟨f' - 1, by omega⟩
    have hf : f ≤ f' := by omega
    simp only [dijkstra] at e ⊢
    split at e
    · cases e
    · exact e
    · split at e
      · cases e
      · exact e
      · exact ih _ _ _ hf e

theorem flip_mono (pred : Fin m → Fin n) (freerow : Fin n) : ∀ (f f' : Nat)
    (rowsol : Fin n → Option (Fin m)) (colsol : Fin m → Option (Fin n)) (e : Fin m)
    (r : (Fin n → Option (Fin m)) × (Fin m → Option (Fin n))), f ≤ f' →
    flip pred freerow f rowsol colsol e = some r → flip pred freerow f' rowsol colsol e = some r := by
  intro f
  induction f with
  | zero => intro f' rs cs x r _ e; simp [flip] at e
  | succ f ih =>
    intro f' rs cs x r hf e
    obtain ⟨f', rfl⟩ : ∃ g, f' = g + 1 := ⟨f' - 1, by omega⟩
    have hf : f ≤ f' := by omega
    simp only [flip] at e ⊢
    split at e
    · rename_i hk
      rw [if_pos hk]
      exact e
    · rename_i hk
      rw [if_neg hk]
      split at e
      · cases e
      · exact ih _ _ _ _ _ hf e

theorem augment_mono (C : Cost n m) {f f' : Nat} (hf : f ≤ f') (i : Fin n) {s r : St n m}
    (e : augment C f i s = some r) : augment C f' i s = some r := by
  simp only [augment] at e ⊢
  split at e
  · cases e
  · rename_i t x ht
    rw [dijkstra_mono C s.v s.colsol f f' _ _ hf ht]
    simp only
    split at e
    · cases e
    · rename_i rs cs hr
      rw [flip_mono _ _ f f' _ _ _ _ hf hr]
      exact e

theorem augmentAll_mono (C : Cost n m) {f f' : Nat} (hf : f ≤ f') : ∀ (l : List (Fin n))
    (s r : St n m), augmentAll C f l s = some r → augmentAll C f' l s = some r := by
  intro l
  induction l with
  | nil => intro s r e; exact e
  | cons i l ih =>
    intro s r e
    simp only [augmentAll, Option.bind_eq_some_iff] at e ⊢
    obtain ⟨s1, h1, h2⟩ := e
    exact ⟨s1, augment_mono C hf i h1, ih _ _ h2⟩

theorem rlap_mono (C : Cost n m) {f f' : Nat} (hf : f ≤ f') (u0 : Fin n → XR) (v0 : Fin m → XR)
    {r : Sol n m} (e : rlap C f u0 v0 = some r) : rlap C f' u0 v0 = some r := by
  simp only [rlap, rlapWith] at e ⊢
  split at e
  · cases e
  · rename_i s1 free1 nf1 h1
    rw [arrLoop_mono _ C _ f f' _ _ _ _ _ hf h1]
    simp only
    split at e
    · cases e
    · rename_i s2 free2 nf2 h2
      rw [arrLoop_mono _ C _ f f' _ _ _ _ _ hf h2]
      simp only [Option.map_eq_some_iff] at e ⊢
      obtain ⟨s3, h3, h4⟩ := e
      exact ⟨s3, augmentAll_mono C hf _ _ _ h3, h4⟩

theorem lap_mono (C : Cost n m) {f f' : Nat} (hf : f ≤ f') {r : Bool × Sol n m}
    (e : lap C f = some r) : lap C f' = some r := by
  simp only [lap, lapWith] at e ⊢
  split at e
  · cases e
  · exact e
  · simp only [Option.map_eq_some_iff] at e ⊢
    obtain ⟨s, h1, h2⟩ := e
    exact ⟨s, rlap_mono C hf _ _ h1, h2⟩

end Verif.Lap
