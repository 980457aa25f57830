import Verif.Murty.Props

/-!
# Sub-problems in memory (C115)

`allbut`, `murty.hpp:28-77`, at the level of the memory it copies: `resize` leaves the entries
uninitialised (`none`), and every `block` has to lie in its matrix.  The vectors of indices are
lists, as `std::vector::erase` sees them.
-/

namespace Verif.Murty

open Verif.Lap

variable {α : Type} {n m r c r' c' : Nat}

/-- A matrix after `resize`, `murty.hpp:32,56,69`: what has not been written yet is `none`. -/
abbrev Buf (α : Type) (r c : Nat) := Fin r → Fin c → Option α

/-- `to.block(i0, j0, h, w) = from.block(i1, j1, h, w)`, `murty.hpp:35,38-39,42-43,46-47`; a block
that is not inside its matrix is undefined. -/
def copyBlock (i0 j0 i1 j1 h w : Nat) (frm : Fin r → Fin c → α) (dst : Buf α r' c') :
    Option (Buf α r' c') :=
  if hb : i0 + h ≤ r' ∧ j0 + w ≤ c' ∧ i1 + h ≤ r ∧ j1 + w ≤ c then
    some fun a b =>
      if hab : i0 ≤ a.val ∧ a.val < i0 + h ∧ j0 ≤ b.val ∧ b.val < j0 + w then
        some (frm ⟨a.val - i0 + i1, by omega⟩ ⟨b.val - j0 + j1, by omega⟩)
      else dst a b
  else none

/-- `allbut` on a matrix of `r + 1` rows and `c + 1` columns, `murty.hpp:28-49`.  (Without rows or
columns `rows - 1` is `UINT_MAX` and `resize` fails.) -/
def allbut (frm : Fin (r + 1) → Fin (c + 1) → α) (row col : Nat) : Option (Buf α r c) :=
  let rows := r + 1
  let cols := c + 1
  let dst : Buf α r c := fun _ _ => none
  ((if 0 < row ∧ 0 < col then copyBlock 0 0 0 0 row col frm dst else some dst).bind fun dst =>
    (if 0 < row ∧ col < cols - 1 then copyBlock 0 col 0 (col + 1) row (cols - col - 1) frm dst
      else some dst).bind fun dst =>
    (if row < rows - 1 ∧ 0 < col then copyBlock row 0 (row + 1) 0 (rows - row - 1) col frm dst
      else some dst).bind fun dst =>
    if row < rows - 1 ∧ col < cols - 1 then
      copyBlock row col (row + 1) (col + 1) (rows - row - 1) (cols - col - 1) frm dst
    else some dst)

/-- `allbut` on a column vector of `r + 1` entries, `murty.hpp:51-63`: the vector is a matrix of one
column.  (The overload for row vectors, `65-77`, is the same with the sides exchanged; `Dual` is a
column vector, so it is not used.) -/
def allbutVec (frm : Fin (r + 1) → α) (row : Nat) : Option (Fin r → Option α) :=
  let rows := r + 1
  let dst : Buf α r 1 := fun _ _ => none
  ((if 0 < row then copyBlock 0 0 0 0 row 1 (fun a (_ : Fin 1) => frm a) dst else some dst).bind
    fun dst => if row < rows - 1 then
      copyBlock row 0 (row + 1) 0 (rows - row - 1) 1 (fun a (_ : Fin 1) => frm a) dst
    else some dst).map fun dst a => dst a 0

/-- `partition_with`, `murty.hpp:115-127`, in memory: the reduced matrix, the duals, the maps after
`erase(begin() + i)` (`122-123`; erasing `end()` or beyond is undefined) and the bound cost. -/
def bindRow (C : Cost (r + 1) (c + 1)) (u : Fin (r + 1) → XR) (v : Fin (c + 1) → XR)
    (rmap cmap : List Nat) (bound : XR) (i j : Nat) :
    Option (Buf XR r c × (Fin r → Option XR) × (Fin c → Option XR) × List Nat × List Nat × XR) :=
  if h : i < r + 1 ∧ j < c + 1 then
    (allbut C i j).bind fun C' => (allbutVec u i).bind fun u' => (allbutVec v j).bind fun v' =>
      if i < rmap.length ∧ j < cmap.length then
        some (C', u', v', rmap.eraseIdx i, cmap.eraseIdx j, bound.add (C ⟨i, h.1⟩ ⟨j, h.2⟩))
      else none
  else none

theorem succAbove_val (i : Fin (r + 1)) (a : Fin r) :
    (i.succAbove a).val = if a.val < i.val then a.val else a.val + 1 := by
  unfold Fin.succAbove
  split <;> rename_i h <;> simp only [Fin.lt_def, Fin.val_castSucc] at h <;> simp [h]

/-- One of the guarded block copies: what it writes is right and in bounds, and it covers its part
even if it is skipped. -/
theorem copy_step {p : Prop} [Decidable p] {i0 j0 i1 j1 h w : Nat} {frm : Fin r → Fin c → α}
    {dst : Buf α r' c'} (f : Fin r' → Fin c' → α)
    (hb : p → i0 + h ≤ r' ∧ j0 + w ≤ c' ∧ i1 + h ≤ r ∧ j1 + w ≤ c)
    (he : ¬ p → h = 0 ∨ w = 0)
    (hf : ∀ (a : Fin r') (b : Fin c') (ha : a.val - i0 + i1 < r) (hb : b.val - j0 + j1 < c),
      i0 ≤ a.val → a.val < i0 + h → j0 ≤ b.val → b.val < j0 + w →
      frm ⟨a.val - i0 + i1, ha⟩ ⟨b.val - j0 + j1, hb⟩ = f a b) :
    (if p then copyBlock i0 j0 i1 j1 h w frm dst else some dst) =
      some fun a b => if i0 ≤ a.val ∧ a.val < i0 + h ∧ j0 ≤ b.val ∧ b.val < j0 + w then
        some (f a b) else dst a b := by
  by_cases hp : p
  · rw [if_pos hp, copyBlock, dif_pos (hb hp)]
    congr 1
    funext a b
    split
    · rename_i hab
      rw [hf a b _ _ hab.1 hab.2.1 hab.2.2.1 hab.2.2.2]
    · rfl
  · rw [if_neg hp]
    congr 1
    funext a b
    rw [if_neg]
    rcases he hp with h | h <;> omega

/-- C115: `allbut` stays inside both matrices and writes every entry of the smaller one, with the
entry of the larger one that is left there when the row and the column are crossed out. -/
theorem C115_allbut (frm : Fin (r + 1) → Fin (c + 1) → α) (i : Fin (r + 1)) (j : Fin (c + 1)) :
    allbut frm i j = some fun a b => some (frm (i.succAbove a) (j.succAbove b)) := by
  have hi := i.isLt
  have hj := j.isLt
  have hs : ∀ (a : Fin r) (b : Fin c) (x y : Nat) (hx : x < r + 1) (hy : y < c + 1),
      x = (if a.val < i.val then a.val else a.val + 1) →
      y = (if b.val < j.val then b.val else b.val + 1) →
      frm ⟨x, hx⟩ ⟨y, hy⟩ = frm (i.succAbove a) (j.succAbove b) := by
    intro a b x y hx hy h1 h2
    congr 1
    · exact Fin.ext (h1.trans (succAbove_val _ _).symm)
    · exact Fin.ext (h2.trans (succAbove_val _ _).symm)
  unfold allbut
  simp only
  rw [copy_step (fun a b => frm (i.succAbove a) (j.succAbove b)) (by omega) (by omega)
      (fun a b _ _ _ _ _ _ => hs a b _ _ _ _ (by split <;> omega) (by split <;> omega)),
    Option.bind_some,
    copy_step (fun a b => frm (i.succAbove a) (j.succAbove b)) (by omega) (by omega)
      (fun a b _ _ _ _ _ _ => hs a b _ _ _ _ (by split <;> omega) (by split <;> omega)),
    Option.bind_some,
    copy_step (fun a b => frm (i.succAbove a) (j.succAbove b)) (by omega) (by omega)
      (fun a b _ _ _ _ _ _ => hs a b _ _ _ _ (by split <;> omega) (by split <;> omega)),
    Option.bind_some,
    copy_step (fun a b => frm (i.succAbove a) (j.succAbove b)) (by omega) (by omega)
      (fun a b _ _ _ _ _ _ => hs a b _ _ _ _ (by split <;> omega) (by split <;> omega))]
  congr 1
  funext a b
  have ha := a.isLt
  have hb := b.isLt
  split_ifs <;> first | rfl | omega

theorem allbutVec_spec (frm : Fin (r + 1) → α) (i : Fin (r + 1)) :
    allbutVec frm i = some fun a => some (frm (i.succAbove a)) := by
  have hi := i.isLt
  have hs : ∀ (a : Fin r) (x : Nat) (hx : x < r + 1),
      x = (if a.val < i.val then a.val else a.val + 1) →
      frm ⟨x, hx⟩ = frm (i.succAbove a) := by
    intro a x hx h1
    congr 1
    exact Fin.ext (h1.trans (succAbove_val _ _).symm)
  unfold allbutVec
  simp only
  rw [copy_step (fun a _ => frm (i.succAbove a)) (by omega) (by omega)
      (fun a b _ _ _ _ _ _ => hs a _ _ (by split <;> omega)),
    Option.bind_some,
    copy_step (fun a _ => frm (i.succAbove a)) (by omega) (by omega)
      (fun a b _ _ _ _ _ _ => hs a _ _ (by split <;> omega)), Option.map_some]
  congr 1
  funext a
  have ha := a.isLt
  simp only [Fin.val_zero]
  split_ifs <;> first | rfl | omega

theorem eraseIdx_ofFn (f : Fin (r + 1) → Nat) (i : Fin (r + 1)) :
    (List.ofFn f).eraseIdx i = List.ofFn (f ∘ i.succAbove) := by
  apply List.ext_getElem
  · rw [List.length_eraseIdx]; simp
  · intro k h1 h2
    rw [List.getElem_eraseIdx]
    simp only [List.length_ofFn] at h2
    split
    · rename_i hk
      rw [List.getElem_ofFn, List.getElem_ofFn]
      simp only [Function.comp]
      congr 1
      exact Fin.ext ((succAbove_val i ⟨k, h2⟩).trans (if_pos hk)).symm
    · rename_i hk
      rw [List.getElem_ofFn, List.getElem_ofFn]
      simp only [Function.comp]
      congr 1
      exact Fin.ext ((succAbove_val i ⟨k, h2⟩).trans (if_neg hk)).symm

example : allbut (r := 2) (c := 3) (fun a b => 10 * a.val + b.val) 1 2 =
    some ![![some 0, some 1, some 3], ![some 20, some 21, some 23]] := by
  refine (C115_allbut (r := 2) (c := 3) _ 1 2).trans (congrArg some ?_)
  funext a b
  fin_cases a <;> fin_cases b <;> rfl

/-- C115: binding row `i` to column `j` in memory gives the state that the enumeration works with
(`partitionWith`), with nothing left uninitialised. -/
theorem C115_bind (C : Cost (r + 1) (c + 1)) (u : Fin (r + 1) → XR) (v : Fin (c + 1) → XR)
    (cost bound : XR) (solved : Bool) (sol : Fin n → Option (Fin m))
    (res : Fin (r + 1) → Option (Fin (c + 1))) (rmap : Fin (r + 1) → Fin n)
    (cmap : Fin (c + 1) → Fin m) (i : Fin (r + 1)) (j : Fin (c + 1)) :
    ∃ (C' : Cost r c) (u' : Fin r → XR) (v' : Fin c → XR) (rmap' : Fin r → Fin n)
      (cmap' : Fin c → Fin m) (bound' : XR),
      partitionWith ⟨r + 1, c + 1, C, u, v, cost, bound, solved, sol, res, rmap, cmap⟩ i j =
        some ⟨r, c, C', u', v', cost, bound', false, sol, fun _ => none, rmap', cmap'⟩ ∧
      bindRow C u v (List.ofFn fun a => (rmap a).val) (List.ofFn fun b => (cmap b).val) bound i j =
        some (fun a b => some (C' a b), fun a => some (u' a), fun b => some (v' b),
          List.ofFn fun a => (rmap' a).val, List.ofFn fun b => (cmap' b).val, bound') := by
  refine ⟨fun a b => C (i.succAbove a) (j.succAbove b), u ∘ i.succAbove, v ∘ j.succAbove,
    rmap ∘ i.succAbove, cmap ∘ j.succAbove, bound.add (C i j), ?_, ?_⟩
  rotate_left
  · unfold bindRow
    rw [dif_pos ⟨i.isLt, j.isLt⟩, C115_allbut, Option.bind_some, allbutVec_spec, Option.bind_some,
      allbutVec_spec, Option.bind_some, if_pos (by simp), eraseIdx_ofFn, eraseIdx_ofFn]
    rfl
  · simp only [partitionWith]
    exact dif_pos ⟨i.isLt, j.isLt⟩

example := C115_bind (n := 2) (m := 3) exM (fun _ => XR.nan) (fun _ => XR.fin 0) (XR.fin 0)
  (XR.fin 0) false (fun _ => none) (fun _ => none) id id 0 1

/-- C115: the assignments of the sub-problem are those of the problem that put row `i` in column
`j`, and they cost less by that entry. -/
theorem C115_sub {C : Cost (r + 1) (c + 1)} {C' : Cost r c} {i : Fin (r + 1)} {j : Fin (c + 1)}
    (h : allbut C i j = some fun a b => some (C' a b)) {x : ℚ} (hx : C i j = XR.fin x) :
    (∀ ρ : Fin r → Fin c, Function.Injective ρ → ∀ y : Fin r → ℚ, (∀ a, C' a (ρ a) = XR.fin (y a)) →
      ∃ (σ : Fin (r + 1) → Fin (c + 1)) (z : Fin (r + 1) → ℚ), Function.Injective σ ∧ σ i = j ∧
        (∀ a, C a (σ a) = XR.fin (z a)) ∧ ∑ a, z a = x + ∑ a, y a ∧
        ∀ a, σ (i.succAbove a) = j.succAbove (ρ a)) ∧
    (∀ σ : Fin (r + 1) → Fin (c + 1), Function.Injective σ → σ i = j → ∀ z : Fin (r + 1) → ℚ,
      (∀ a, C a (σ a) = XR.fin (z a)) →
      ∃ (ρ : Fin r → Fin c) (y : Fin r → ℚ), Function.Injective ρ ∧
        (∀ a, C' a (ρ a) = XR.fin (y a)) ∧ ∑ a, z a = x + ∑ a, y a ∧
        ∀ a, σ (i.succAbove a) = j.succAbove (ρ a)) := by
  have hC : ∀ a b, C' a b = C (i.succAbove a) (j.succAbove b) := by
    intro a b
    rw [C115_allbut] at h
    have := congrFun (congrFun (Option.some.inj h) a) b
    exact (Option.some.inj this).symm
  constructor
  · intro ρ hρ y hy
    refine ⟨Fin.insertNth (α := fun _ => Fin (c + 1)) i j (fun a => j.succAbove (ρ a)),
      Fin.insertNth (α := fun _ => ℚ) i x y, ?_, ?_, ?_, ?_, ?_⟩
    · intro a b
      refine Fin.succAboveCases i ?_ (fun a' => ?_) a <;>
        refine Fin.succAboveCases i ?_ (fun b' => ?_) b
      · simp
      · intro h; simp only [Fin.insertNth_apply_same, Fin.insertNth_apply_succAbove] at h
        exact absurd h.symm (Fin.succAbove_ne _ _)
      · intro h; simp only [Fin.insertNth_apply_same, Fin.insertNth_apply_succAbove] at h
        exact absurd h (Fin.succAbove_ne _ _)
      · intro h
        simp only [Fin.insertNth_apply_succAbove] at h
        rw [hρ (Fin.succAbove_right_injective h)]
    · simp
    · intro a
      refine Fin.succAboveCases i ?_ (fun a' => ?_) a
      · simpa using hx
      · simpa [← hC] using hy a'
    · rw [Fin.sum_univ_succAbove _ i]
      simp
    · intro a; simp
  · intro σ hσ hj z hz
    have hne : ∀ a, ∃ b, j.succAbove b = σ (i.succAbove a) := by
      intro a
      apply Fin.exists_succAbove_eq
      rw [← hj]
      exact fun h => Fin.succAbove_ne i a (hσ h)
    choose ρ hρ using hne
    refine ⟨ρ, fun a => z (i.succAbove a), ?_, ?_, ?_, fun a => (hρ a).symm⟩
    · intro a b hab
      apply Fin.succAbove_right_injective (p := i)
      apply hσ
      rw [← hρ, ← hρ, hab]
    · intro a
      rw [hC, hρ, hz]
    · rw [Fin.sum_univ_succAbove _ i]
      have : z i = x := by
        have := hz i
        rw [hj, hx] at this
        exact (XR.fin.inj this).symm
      rw [this]

example := C115_sub (C115_allbut exM 0 1) (x := -2) rfl

end Verif.Murty
