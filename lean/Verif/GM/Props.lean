import Verif.GM.Join
import Mathlib.Data.List.Sort
import Mathlib.Algebra.Order.Ring.Rat
import Mathlib.Data.Rat.Floor
import Mathlib.Algebra.BigOperators.Ring.List
import Mathlib.Algebra.Order.Floor.Semiring

/-! # Properties C37, C38, C39 and C41: mixtures -/

namespace Verif.GM

variable {X K : Type*} [Field K] [LinearOrder K] [IsStrictOrderedRing K]

/-- The lower limit of `normalize`, `gm.hpp:48`. -/
theorem small_pos : (0 : K) < 1 / 100000000 := by positivity

omit [LinearOrder K] [IsStrictOrderedRing K] in
theorem sum_div (c : List (Cmp X K)) (a : K) :
    (c.map fun g => g.w / a).sum = (c.map Cmp.w).sum / a := by
  induction c with
  | nil => simp
  | cons g l ih => simp [ih, add_div]

/-! ## C37 -/

/-- C37: if the weights sum to more than 1e-8, `normalize` keeps the components in order, divides
every weight by that sum, so that they sum to 1 and keep their proportions, and leaves the sum in
`eta`; otherwise the mixture is empty and `eta` is 0. -/
theorem C37_normalize (m : Mix X K) :
    (1 / 100000000 < (m.c.map Cmp.w).sum →
      ((normalize m).c.map Cmp.w).sum = 1 ∧ (normalize m).eta = (m.c.map Cmp.w).sum ∧
      (normalize m).c.map Cmp.x = m.c.map Cmp.x ∧
      ∀ (i k : Nat) (a b a' b' : Cmp X K), m.c[i]? = some a → m.c[k]? = some b →
        (normalize m).c[i]? = some a' → (normalize m).c[k]? = some b' →
        a'.w * b.w = b'.w * a.w) ∧
    ((m.c.map Cmp.w).sum ≤ 1 / 100000000 → (normalize m).c = [] ∧ (normalize m).eta = 0) := by
  unfold normalize
  rw [wsum_eq]
  constructor
  · intro h
    have hne : (m.c.map Cmp.w).sum ≠ 0 := (small_pos.trans h).ne'
    rw [if_pos h]
    refine ⟨?_, rfl, ?_, ?_⟩
    · simp only [List.map_map]
      rw [show (Cmp.w ∘ fun g : Cmp X K => (⟨g.x, g.w / (m.c.map Cmp.w).sum⟩ : Cmp X K)) =
        fun g => g.w / (m.c.map Cmp.w).sum from rfl, sum_div, div_self hne]
    · simp only [List.map_map]; rfl
    · intro i k a b a' b' h1 h2 h3 h4
      simp only [List.getElem?_map, h1, h2, Option.map_some, Option.some.injEq] at h3 h4
      subst h3 h4
      field_simp
  · intro h
    rw [if_neg (not_lt.2 h)]
    exact ⟨rfl, rfl⟩

/-- Three components of total weight 2. -/
def exMix : Mix Nat ℚ := ⟨[⟨0, 1 / 2⟩, ⟨1, 1⟩, ⟨2, 1 / 2⟩], 0⟩

example : ((normalize exMix).c.map Cmp.w).sum = 1 := ((C37_normalize exMix).1 (by decide +kernel)).1

theorem normalize_c (m : Mix X K) (h : 1 / 100000000 < (m.c.map Cmp.w).sum) :
    (normalize m).c = m.c.map fun g => ⟨g.x, g.w / (m.c.map Cmp.w).sum⟩ := by
  unfold normalize
  rw [wsum_eq, if_pos h]

/-! ## C38 -/

/-- C38: for mixtures `pdfs` and factors `w` (none negative), `join` never reads out of range.
Its result is `kept`, a choice among all components with their weights scaled by the factor of
their mixture, no component used twice, in descending order, at most `mx` of them, none of the
`dropped` ones heavier than a kept one; then normalised.  It stops only when `mx` are taken, none
are left, or the heaviest one left would have a share below the limit. -/
theorem C38_join (srt : List (Cmp X K) → List (Cmp X K)) (hsrt : SortOk srt) (lim : K) (mx : Nat)
    (w : List K) (pdfs : List (List (Cmp X K))) (hlen : w.length = pdfs.length)
    (hw : ∀ a ∈ w, 0 ≤ a) :
    ∃ (m : Mix X K) (kept dropped : List (Cmp X K)), join srt lim mx w pdfs = some m ∧
      (kept ++ dropped).Perm ((w.zip pdfs).flatMap fun y => y.2.map fun g => ⟨g.x, y.1 * g.w⟩) ∧
      kept.length ≤ mx ∧ kept.Pairwise (fun a b => b.w ≤ a.w) ∧
      (∀ a ∈ kept, ∀ b ∈ dropped, b.w ≤ a.w) ∧
      (kept.length = mx ∨ dropped = [] ∨ ∃ d ∈ dropped, (∀ b ∈ dropped, b.w ≤ d.w) ∧
        d.w / ((kept.map Cmp.w).sum + d.w) < lim) ∧
      (1 / 100000000 < (kept.map Cmp.w).sum →
        m.c = kept.map (fun g => ⟨g.x, g.w / (kept.map Cmp.w).sum⟩) ∧ (m.c.map Cmp.w).sum = 1 ∧
        m.eta = (kept.map Cmp.w).sum) ∧
      ((kept.map Cmp.w).sum ≤ 1 / 100000000 → m.c = [] ∧ m.eta = 0) := by
  have hf : ∀ j, 0 ≤ w.getD j 0 := by
    intro j
    rw [List.getD_eq_getElem?_getD]
    cases h : w[j]? with
    | none => exact le_refl _
    | some a => exact hw a (List.mem_of_getElem? h)
  have hs : ∀ j, (srt (pdfs.getD j [])).Pairwise fun a b => b.w ≤ a.w := fun j => (hsrt _).2
  obtain ⟨kept, dropped, h1, h2, h3, h4, h5, h6⟩ := joinLoop_spec hf hs lim mx _ 0 []
    (initQ_inv (fun j => w.getD j 0) (fun j => srt (pdfs.getD j [])) w.length) (by simp)
  refine ⟨normalize ⟨kept, 0⟩, kept, dropped, ?_, ?_, by simpa using h3, h4, h5, ?_, ?_, ?_⟩
  · unfold join
    simp only
    rw [h1]
    rfl
  · refine h2.trans ?_
    unfold everything
    have hz : w.zip pdfs = (List.range w.length).map fun j => (w.getD j 0, pdfs.getD j []) := by
      apply List.ext_getElem?
      intro i
      rw [List.getElem?_map]
      by_cases hi : i < w.length
      · have hi' : i < pdfs.length := hlen ▸ hi
        simp [List.getElem?_zip_eq_some, hi, hi', List.getD_eq_getElem?_getD]
      · have hi' : ¬ i < pdfs.length := hlen ▸ hi
        simp [hi, hi', List.getElem?_eq_none]
    rw [hz, List.flatMap_map]
    apply List.Perm.flatMap_left
    intro j _
    exact (hsrt _).1.map _
  · rcases h6 with h6 | h6 | ⟨d, d1, d2, d3⟩
    · exact Or.inl (by simpa using h6)
    · exact Or.inr (Or.inl h6)
    · exact Or.inr (Or.inr ⟨d, d1, d2, d3.2⟩)
  · intro h
    refine ⟨normalize_c ⟨kept, 0⟩ h, ?_⟩
    have := (C37_normalize (⟨kept, 0⟩ : Mix X K)).1 h
    exact ⟨this.1, this.2.1⟩
  · intro h
    exact (C37_normalize (⟨kept, 0⟩ : Mix X K)).2 h

/-- A sorting function as required of `std::sort`. -/
def exSort (l : List (Cmp Nat ℚ)) : List (Cmp Nat ℚ) := l.insertionSort fun a b => b.w ≤ a.w

theorem exSort_ok : SortOk exSort := by
  intro l
  haveI : Std.Total (α := Cmp Nat ℚ) (fun a b => b.w ≤ a.w) := ⟨fun a b => le_total _ _⟩
  haveI : IsTrans (Cmp Nat ℚ) (fun a b => b.w ≤ a.w) := ⟨fun _ _ _ h1 h2 => h2.trans h1⟩
  exact ⟨List.perm_insertionSort _ l, List.pairwise_insertionSort _ l⟩

/-- Two mixtures, the second one not sorted. -/
def exPdfs : List (List (Cmp Nat ℚ)) := [[⟨0, 3 / 4⟩, ⟨1, 1 / 4⟩], [⟨2, 1 / 5⟩, ⟨3, 4 / 5⟩]]

example := C38_join exSort exSort_ok (1 / 100) 3 [1 / 2, 1 / 3] exPdfs rfl (by decide +kernel)

example : ((join exSort (1 / 100) 3 [1 / 2, 1 / 3] exPdfs).map fun m =>
    m.c.map fun g => (g.x, g.w)) = some [(0, 45 / 92), (3, 8 / 23), (1, 15 / 92)] := by
  decide +kernel

/-! ## C39 -/

/-- C39: `prune` removes exactly the components below the limit and, beyond `mx`, the lightest
ones; the survivors are in descending order and, if any, their weights sum to 1. -/
theorem C39_prune (srt : List (Cmp X K) → List (Cmp X K)) (hsrt : SortOk srt) (lim : K)
    (hlim : 1 / 100000000 < lim) (mx : Nat) (m : Mix X K) :
    ∃ kept dropped : List (Cmp X K),
      (kept ++ dropped).Perm (m.c.filter fun g => lim ≤ g.w) ∧
      kept.length = min mx (m.c.filter fun g => lim ≤ g.w).length ∧
      kept.Pairwise (fun a b => b.w ≤ a.w) ∧ (∀ a ∈ kept, ∀ b ∈ dropped, b.w ≤ a.w) ∧
      (prune srt lim mx m).c = kept.map (fun g => ⟨g.x, g.w / (kept.map Cmp.w).sum⟩) ∧
      (kept ≠ [] → ((prune srt lim mx m).c.map Cmp.w).sum = 1) := by
  have hfil : (m.c.filter fun g => ¬ g.w < lim) = m.c.filter fun g => lim ≤ g.w := by
    apply List.filter_congr
    intro g _
    simp
  obtain ⟨hp, hs⟩ := hsrt (m.c.filter fun g => lim ≤ g.w)
  have hs' := hs
  rw [← List.take_append_drop mx (srt (m.c.filter fun g => lim ≤ g.w)), List.pairwise_append] at hs'
  refine ⟨(srt (m.c.filter fun g => lim ≤ g.w)).take mx,
    (srt (m.c.filter fun g => lim ≤ g.w)).drop mx, ?_, ?_, hs'.1, hs'.2.2, ?_⟩
  · rw [List.take_append_drop]; exact hp
  · rw [List.length_take, hp.length_eq]
  · unfold prune
    simp only
    rw [hfil]
    cases hl : (srt (m.c.filter fun g => lim ≤ g.w)).take mx with
    | nil => simp
    | cons a l =>
      have hbig : 1 / 100000000 < ((a :: l).map Cmp.w).sum := by
        have hall : ∀ g ∈ a :: l, lim ≤ g.w := by
          intro g hg
          rw [← hl] at hg
          have := hp.mem_iff.1 (List.mem_of_mem_take hg)
          simpa using (List.mem_filter.1 this).2
        rw [List.map_cons, List.sum_cons]
        have h1 : 0 ≤ (l.map Cmp.w).sum := by
          apply List.sum_nonneg
          intro x hx
          obtain ⟨g, hg, rfl⟩ := List.mem_map.1 hx
          exact (small_pos.trans hlim).le.trans (hall g (List.mem_cons_of_mem _ hg))
        have h2 := hall a (List.mem_cons_self ..)
        linarith
      rw [if_pos (by simp)]
      refine ⟨normalize_c ⟨a :: l, m.eta⟩ hbig, fun _ => ?_⟩
      exact ((C37_normalize (⟨a :: l, m.eta⟩ : Mix X K)).1 hbig).1

/-- C39 for sums: `a + b` keeps the heaviest components of both. -/
theorem C39_add (srt : List (Cmp X K) → List (Cmp X K)) (hsrt : SortOk srt) (lim : K)
    (hlim : 1 / 100000000 < lim) (mx : Nat) (a b : Mix X K) :
    ∃ kept dropped : List (Cmp X K),
      (kept ++ dropped).Perm ((a.c ++ b.c).filter fun g => lim ≤ g.w) ∧
      kept.length = min mx ((a.c ++ b.c).filter fun g => lim ≤ g.w).length ∧
      kept.Pairwise (fun a b => b.w ≤ a.w) ∧ (∀ a ∈ kept, ∀ b ∈ dropped, b.w ≤ a.w) ∧
      (add srt lim mx a b).c = kept.map (fun g => ⟨g.x, g.w / (kept.map Cmp.w).sum⟩) ∧
      (kept ≠ [] → ((add srt lim mx a b).c.map Cmp.w).sum = 1) :=
  C39_prune srt hsrt lim hlim mx ⟨a.c ++ b.c, a.eta⟩

example := C39_prune exSort exSort_ok (3 / 5) (by norm_num) 2 exMix
example := C39_add exSort exSort_ok (2 / 5) (by norm_num) 2 exMix exMix

example : ((prune exSort (2 / 5) 2 exMix).c.map fun g => (g.x, g.w)) = [(1, 2 / 3), (0, 1 / 3)] := by
  decide +kernel

/-! ## C41 -/

section sampling

variable [FloorRing K]

theorem floor_toNat_le {a : K} (h : 0 ≤ a) : ((⌊a⌋.toNat : Nat) : K) ≤ a := by
  have h1 : (0 : ℤ) ≤ ⌊a⌋ := Int.floor_nonneg.2 h
  have h2 : ((⌊a⌋.toNat : Nat) : K) = ((⌊a⌋ : ℤ) : K) := by
    rw [← Int.cast_natCast, Int.toNat_of_nonneg h1]
  rw [h2]
  exact Int.floor_le a

theorem lt_floor_toNat {a : K} (h : 0 ≤ a) : a < (⌊a⌋.toNat : Nat) + 1 := by
  have h1 : (0 : ℤ) ≤ ⌊a⌋ := Int.floor_nonneg.2 h
  have h2 : ((⌊a⌋.toNat : Nat) : K) = ((⌊a⌋ : ℤ) : K) := by
    rw [← Int.cast_natCast, Int.toNat_of_nonneg h1]
  rw [h2]
  exact Int.lt_floor_add_one a

/-- The number of columns written. -/
def written (bl : List (Nat × Nat)) : Nat := (bl.map Prod.snd).sum

theorem sampleBlocks_spec (cols : Nat) : ∀ (c : List (Cmp X K)) (col : Nat),
    (∀ g ∈ c, 0 ≤ g.w) → (col : K) + (c.map Cmp.w).sum * cols ≤ cols →
    ∃ bl, sampleBlocks cols c col = some bl ∧
      (∀ b ∈ bl, col ≤ b.1 ∧ b.1 + b.2 ≤ cols) ∧ bl.Pairwise (fun a b => a.1 + a.2 ≤ b.1) ∧
      (c ≠ [] → (c.map Cmp.w).sum * cols < written bl + c.length) ∧
      col + written bl ≤ cols := by
  intro c
  induction c with
  | nil =>
    intro col _ h
    refine ⟨[], rfl, by simp, List.Pairwise.nil, by simp, ?_⟩
    have : (col : K) ≤ cols := by simpa using h
    simpa [written] using (Nat.cast_le (α := K)).1 this
  | cons g l ih =>
    intro col hw h
    have hg := hw g (List.mem_cons_self ..)
    have hl : ∀ g' ∈ l, 0 ≤ g'.w := fun g' hg' => hw g' (List.mem_cons_of_mem _ hg')
    have hc0 : (0 : K) ≤ cols := Nat.cast_nonneg _
    have hgc : 0 ≤ g.w * cols := mul_nonneg hg hc0
    have hls : 0 ≤ (l.map Cmp.w).sum := by
      apply List.sum_nonneg
      intro x hx
      obtain ⟨g', hg', rfl⟩ := List.mem_map.1 hx
      exact hl g' hg'
    have hfl := floor_toNat_le hgc
    rw [List.map_cons, List.sum_cons, add_mul] at h
    have hnext : ((col + ⌊g.w * cols⌋.toNat : Nat) : K) + (l.map Cmp.w).sum * cols ≤ cols := by
      rw [Nat.cast_add]; linarith
    obtain ⟨bl, b1, b2, b3, b4, b5⟩ := ih _ hl hnext
    have hfit : col + ⌊g.w * cols⌋.toNat ≤ cols := by omega
    refine ⟨(col, ⌊g.w * cols⌋.toNat) :: bl, ?_, ?_, ?_, ?_, ?_⟩
    · unfold sampleBlocks
      rw [if_neg (by linarith)]
      simp only
      rw [if_pos hfit, b1]
      rfl
    · intro b hb
      rcases List.mem_cons.1 hb with rfl | hb
      · exact ⟨le_refl _, hfit⟩
      · have := b2 b hb
        omega
    · rw [List.pairwise_cons]
      exact ⟨fun b hb => (b2 b hb).1, b3⟩
    · intro _
      have hlt := lt_floor_toNat hgc
      rw [List.map_cons, List.sum_cons, add_mul]
      unfold written at b4 ⊢
      rw [List.map_cons, List.sum_cons, List.length_cons, Nat.cast_add, Nat.cast_add, Nat.cast_one]
      cases l with
      | nil =>
        simp only [List.map_nil, List.sum_nil, zero_mul, add_zero, List.length_nil, Nat.cast_zero]
        have : (0 : K) ≤ (((bl.map Prod.snd).sum : Nat) : K) := Nat.cast_nonneg _
        linarith
      | cons g' l' =>
        have := b4 (by simp)
        linarith
    · unfold written at b5 ⊢
      rw [List.map_cons, List.sum_cons]
      omega

/-- C41: sampling a normalised mixture writes only inside the buffer, in blocks that do not overlap,
and leaves fewer columns unwritten than there are components. -/
theorem C41_in_bounds (cols : Nat) (c : List (Cmp X K)) (hw : ∀ g ∈ c, 0 ≤ g.w)
    (h1 : (c.map Cmp.w).sum = 1) :
    ∃ bl, sampleBlocks cols c 0 = some bl ∧ (∀ b ∈ bl, b.1 + b.2 ≤ cols) ∧
      bl.Pairwise (fun a b => a.1 + a.2 ≤ b.1) ∧ (bl.map Prod.snd).sum ≤ cols ∧
      cols < (bl.map Prod.snd).sum + c.length := by
  have hne : c ≠ [] := by
    rintro rfl
    simp at h1
  obtain ⟨bl, b1, b2, b3, b4, b5⟩ := sampleBlocks_spec cols c 0 hw (by simp [h1])
  refine ⟨bl, b1, fun b hb => (b2 b hb).2, b3, by unfold written at b5; omega, ?_⟩
  have := b4 hne
  rw [h1, one_mul] at this
  unfold written at this
  exact_mod_cast this

end sampling

/-- Three components of equal weight. -/
def exThird : List (Cmp Nat ℚ) := [⟨0, 1 / 3⟩, ⟨1, 1 / 3⟩, ⟨2, 1 / 3⟩]

example := C41_in_bounds 1000 exThird (by decide +kernel) (by decide +kernel)

/-- C41: columns are left unwritten: with three equal components and the 1000 samples of
`pos_phd`, column 999 is written by no component. -/
theorem C41_unwritten : ∃ bl, sampleBlocks 1000 exThird 0 = some bl ∧
    ∀ b ∈ bl, ¬ (b.1 ≤ 999 ∧ 999 < b.1 + b.2) := by
  refine ⟨[(0, 333), (333, 333), (666, 333)], by decide +kernel, by decide⟩

end Verif.GM
