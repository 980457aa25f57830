import Verif.GM.Props

/-!
# C107: the order of the mixtures that are joined

`join` takes components in order of their weights, so the order of the mixtures does not matter unless different
components have the same weight.
-/

namespace Verif.GM

variable {X K : Type} [Field K] [LinearOrder K] [IsStrictOrderedRing K]

/-- What the loop of `join` takes is not too light when it is taken. -/
theorem joinLoop_heavy (lim : K) (f : Nat → K) (cs : Nat → List (Cmp X K)) :
    ∀ (k : Nat) (q : List (QE K)) (ws : K) (out kept : List (Cmp X K)), ws = (out.map Cmp.w).sum →
      joinLoop lim f cs k q ws out = some kept → out <+: kept ∧ ∀ p (hp : p < kept.length), out.length ≤ p →
        ¬ tooLight lim kept[p].w ((kept.take (p + 1)).map Cmp.w).sum := by
  intro k
  induction k with
  | zero =>
    intro q ws out kept hw h
    simp only [joinLoop, Option.some.injEq] at h
    subst h
    exact ⟨List.prefix_refl _, fun p hp h => absurd hp (by omega)⟩
  | succ k ih =>
    intro q ws out kept hw h
    unfold joinLoop at h
    cases hp : popMax q with
    | none =>
      simp only [hp, Option.some.injEq] at h
      subst h
      exact ⟨List.prefix_refl _, fun p hp h => absurd hp (by omega)⟩
    | some v =>
      obtain ⟨e, q'⟩ := v
      simp only [hp] at h
      split at h
      · simp only [Option.some.injEq] at h
        subst h
        exact ⟨List.prefix_refl _, fun p hp h => absurd hp (by omega)⟩
      · rename_i hl
        split at h
        · cases h
        · rename_i g hg
          obtain ⟨h1, h2⟩ := ih _ _ _ _ (by simp [hw]) h
          refine ⟨(List.prefix_append _ _).trans h1, fun p hp hle => ?_⟩
          rcases Nat.lt_or_ge out.length p with h3 | h3
          · exact h2 p hp (by rw [List.length_append]; exact h3)
          · have : p = out.length := by omega
            subst this
            obtain ⟨t, rfl⟩ := h1
            have e1 : (out ++ [(⟨g.x, e.w⟩ : Cmp X K)] ++ t)[out.length] = ⟨g.x, e.w⟩ := by simp
            have e2 : (out ++ [(⟨g.x, e.w⟩ : Cmp X K)] ++ t).take (out.length + 1) = out ++ [⟨g.x, e.w⟩] := by
              rw [List.take_append_of_le_length (by simp), List.take_of_length_le (by simp)]
            rw [e1, e2]
            simpa [hw] using hl

/-- The components of the mixtures that are joined, with their weights scaled. -/
def pool (l : List (K × List (Cmp X K))) : List (Cmp X K) :=
  l.flatMap fun y => y.2.map fun g => ⟨g.x, y.1 * g.w⟩

/-- Two loops that take components in order of their weights from the same components take the same, if no two
different ones have the same weight. -/
theorem kept_le {srt : List (Cmp X K) → List (Cmp X K)} (hsrt : SortOk srt) {lim : K} {mx : Nat}
    {T kept dropped kept' dropped' : List (Cmp X K)} (hT : ∀ a ∈ T, ∀ b ∈ T, a.w = b.w → a = b)
    (h1 : (kept ++ dropped).Perm T) (h1' : (kept' ++ dropped').Perm T) (h3' : kept'.length ≤ mx)
    (h4 : kept.Pairwise fun a b => b.w ≤ a.w) (h4' : kept'.Pairwise fun a b => b.w ≤ a.w)
    (h5 : ∀ a ∈ kept, ∀ b ∈ dropped, b.w ≤ a.w) (h5' : ∀ a ∈ kept', ∀ b ∈ dropped', b.w ≤ a.w)
    (h6 : kept.length = mx ∨ dropped = [] ∨ ∃ d ∈ dropped, (∀ b ∈ dropped, b.w ≤ d.w) ∧
      tooLight lim d.w ((kept.map Cmp.w).sum + d.w))
    (h7' : ∀ p (hp : p < kept'.length), ¬ tooLight lim kept'[p].w ((kept'.take (p + 1)).map Cmp.w).sum) :
    kept' <+: kept := by
  have hS : ∀ k d : List (Cmp X K), k.Pairwise (fun a b => b.w ≤ a.w) → (∀ a ∈ k, ∀ b ∈ d, b.w ≤ a.w) →
      (k ++ srt d).Pairwise fun a b => b.w ≤ a.w := by
    intro k d g1 g2
    refine List.pairwise_append.2 ⟨g1, (hsrt d).2, fun a ha b hb => g2 a ha b ((hsrt d).1.mem_iff.1 hb)⟩
  have p1 : (kept ++ srt dropped).Perm T := ((hsrt dropped).1.append_left kept).trans h1
  have p2 : (kept' ++ srt dropped').Perm T := ((hsrt dropped').1.append_left kept').trans h1'
  have heq : kept ++ srt dropped = kept' ++ srt dropped' := by
    refine List.Perm.eq_of_pairwise (le := fun a b : Cmp X K => b.w ≤ a.w) ?_ (hS _ _ h4 h5) (hS _ _ h4' h5')
      (p1.trans p2.symm)
    intro a b ha hb hab hba
    exact hT a (p1.mem_iff.1 ha) b (p2.mem_iff.1 hb) (le_antisymm hba hab)
  rcases Nat.lt_or_ge kept.length kept'.length with hlt | hge
  · exfalso
    have hpre : kept <+: kept' := List.prefix_of_prefix_length_le
      (l₃ := kept' ++ srt dropped') (heq ▸ List.prefix_append _ _) (List.prefix_append _ _) hlt.le
    obtain ⟨t, ht⟩ := hpre
    rcases h6 with h6 | h6 | ⟨d, hd, hmax, hl⟩
    · omega
    · have := p1.length_eq
      have g2 := p2.length_eq
      have g3 : (srt dropped).length = 0 := by rw [(hsrt dropped).1.length_eq, h6]; rfl
      rw [List.length_append, g3] at this
      rw [List.length_append] at g2
      omega
    · have htl : t ≠ [] := by
        rintro rfl
        rw [List.append_nil] at ht
        rw [ht] at hlt
        exact lt_irrefl _ hlt
      obtain ⟨x, t', rfl⟩ := List.exists_cons_of_ne_nil htl
      subst ht
      rw [List.append_assoc] at heq
      have hx := List.append_cancel_left heq
      rw [List.cons_append] at hx
      have hxd : x ∈ dropped := (hsrt dropped).1.mem_iff.1 (by rw [hx]; exact List.mem_cons_self)
      have hdx : d.w ≤ x.w := by
        have hdm : d ∈ srt dropped := (hsrt dropped).1.mem_iff.2 hd
        rw [hx] at hdm
        have hsd := (hsrt dropped).2
        rw [hx] at hsd
        rcases List.mem_cons.1 hdm with h | h
        · rw [h]
        · exact (List.pairwise_cons.1 hsd).1 d h
      have hw : x.w = d.w := le_antisymm (hmax x hxd) hdx
      refine h7' kept.length hlt ?_
      have e1 : (kept ++ x :: t')[kept.length] = x := by simp
      have e2 : (kept ++ x :: t').take (kept.length + 1) = kept ++ [x] := by
        rw [List.take_append]
        simp
      rw [e1, e2, List.map_append, List.sum_append, hw]
      simpa [hw] using hl
  · exact List.prefix_of_prefix_length_le (l₃ := kept ++ srt dropped) (heq ▸ List.prefix_append _ _)
      (List.prefix_append _ _) hge

/-- What `join` takes. -/
theorem join_spec {srt : List (Cmp X K) → List (Cmp X K)} (hsrt : SortOk srt) (lim : K) (mx : Nat)
    (m : List (K × List (Cmp X K))) (hm : ∀ y ∈ m, 0 ≤ y.1) : ∃ kept dropped,
      join srt lim mx (m.map Prod.fst) (m.map Prod.snd) = some (normalize ⟨kept, 0⟩) ∧
      (kept ++ dropped).Perm (pool m) ∧ kept.length ≤ mx ∧ kept.Pairwise (fun a b => b.w ≤ a.w) ∧
      (∀ a ∈ kept, ∀ b ∈ dropped, b.w ≤ a.w) ∧
      (kept.length = mx ∨ dropped = [] ∨ ∃ d ∈ dropped, (∀ b ∈ dropped, b.w ≤ d.w) ∧
        tooLight lim d.w ((kept.map Cmp.w).sum + d.w)) ∧
      ∀ p (hp : p < kept.length), ¬ tooLight lim kept[p].w ((kept.take (p + 1)).map Cmp.w).sum := by
  have hf : ∀ j, 0 ≤ (m.map Prod.fst).getD j 0 := by
    intro j
    rw [List.getD_eq_getElem?_getD]
    cases h : (m.map Prod.fst)[j]? with
    | none => exact le_refl _
    | some a =>
      obtain ⟨y, hy, rfl⟩ := List.mem_map.1 (List.mem_of_getElem? h)
      exact hm y hy
  have hs : ∀ j, (srt ((m.map Prod.snd).getD j [])).Pairwise fun a b => b.w ≤ a.w := fun j => (hsrt _).2
  obtain ⟨kept, dropped, h1, h2, h3, h4, h5, h6⟩ := joinLoop_spec hf hs lim mx _ 0 []
    (initQ_inv (fun j => (m.map Prod.fst).getD j 0) (fun j => srt ((m.map Prod.snd).getD j []))
      (m.map Prod.fst).length) (by simp)
  refine ⟨kept, dropped, ?_, ?_, by simpa using h3, h4, h5, by simpa using h6, ?_⟩
  · unfold join
    simp only
    rw [h1]
    rfl
  · refine h2.trans ?_
    have hz : m = (List.range (m.map Prod.fst).length).map fun j =>
        ((m.map Prod.fst).getD j 0, (m.map Prod.snd).getD j []) := by
      apply List.ext_getElem?
      intro i
      rw [List.getElem?_map]
      by_cases hi : i < m.length
      · simp [hi, List.getD_eq_getElem?_getD]
      · simp [hi, List.getElem?_eq_none]
    conv_rhs => unfold pool; rw [hz]
    rw [List.flatMap_map]
    apply List.Perm.flatMap_left
    intro j _
    exact (hsrt _).1.map _
  · intro p hp
    exact (joinLoop_heavy lim _ _ mx _ 0 [] kept (by simp) h1).2 p hp (Nat.zero_le _)
/-- A component without weight among others that have weights is never taken, if there is a limit. -/
def Slight (lim : K) (l : List (K × List (Cmp X K))) (a : Cmp X K) : Prop :=
  a.w = 0 ∧ 0 < lim ∧ (∀ c ∈ pool l, 0 ≤ c.w) ∧ ∃ c ∈ pool l, 0 < c.w

theorem kept_pos {lim : K} (hlim : 0 < lim) {T kept dropped : List (Cmp X K)} (h1 : (kept ++ dropped).Perm T)
    (h4 : kept.Pairwise fun a b => b.w ≤ a.w) (h5 : ∀ a ∈ kept, ∀ b ∈ dropped, b.w ≤ a.w)
    (h7 : ∀ p (hp : p < kept.length), ¬ tooLight lim kept[p].w ((kept.take (p + 1)).map Cmp.w).sum)
    (h0 : ∀ c ∈ T, 0 ≤ c.w) (hT : ∃ c ∈ T, 0 < c.w) : ∀ a ∈ kept, 0 < a.w := by
  obtain ⟨c, hc, hpos⟩ := hT
  intro a ha
  obtain ⟨p, hp, rfl⟩ := List.mem_iff_getElem.1 ha
  have hk : 0 < kept.length := by omega
  have hcw : c.w ≤ kept[0].w := by
    rcases List.mem_append.1 (h1.mem_iff.2 hc) with h | h
    · obtain ⟨i, hi, rfl⟩ := List.mem_iff_getElem.1 h
      rcases Nat.eq_zero_or_pos i with h' | h'
      · subst h'; exact le_refl _
      · exact List.pairwise_iff_getElem.1 h4 0 i hk hi h'
    · exact h5 _ (List.getElem_mem hk) c h
  have hall : ∀ g ∈ kept, 0 ≤ g.w := fun g hg => h0 g (h1.mem_iff.1 (List.mem_append_left _ hg))
  have hsum : 0 < ((kept.take (p + 1)).map Cmp.w).sum := by
    refine (hpos.trans_le hcw).trans_le (List.single_le_sum ?_ _ ?_)
    · intro x hx
      obtain ⟨g, hg, rfl⟩ := List.mem_map.1 hx
      exact hall g (List.mem_of_mem_take hg)
    · refine List.mem_map.2 ⟨kept[0], List.mem_iff_getElem.2 ⟨0, by rw [List.length_take]; omega, ?_⟩, rfl⟩
      rw [List.getElem_take]
  by_contra hw
  refine h7 p hp ⟨hsum.ne', ?_⟩
  rw [le_antisymm (not_lt.1 hw) (hall _ ha), zero_div]
  exact hlim

/-- **C107, the densities** `join` of the same mixtures with the same factors in another order gives the same
mixture, component by component, if no two different components have the same scaled weight.  Components without
weight do not count. -/
theorem join_order {srt : List (Cmp X K) → List (Cmp X K)} (hsrt : SortOk srt) (lim : K) (mx : Nat)
    {l l' : List (K × List (Cmp X K))} (hp : l.Perm l') (hw : ∀ y ∈ l, 0 ≤ y.1)
    (hd : ∀ a ∈ pool l, ∀ b ∈ pool l, a.w = b.w → a = b ∨ Slight lim l a) :
    join srt lim mx (l.map Prod.fst) (l.map Prod.snd) = join srt lim mx (l'.map Prod.fst) (l'.map Prod.snd) := by
  obtain ⟨k, d, a1, a2, a3, a4, a5, a6, a7⟩ := join_spec hsrt lim mx l hw
  obtain ⟨k', d', b1, b2, b3, b4, b5, b6, b7⟩ := join_spec hsrt lim mx l' fun y hy => hw y (hp.mem_iff.2 hy)
  have hpool : (pool l').Perm (pool l) := (hp.symm.flatMap_right _)
  have b2 := b2.trans hpool
  have : k = k' := by
    by_cases hs : ∀ a ∈ pool l, ¬ Slight lim l a
    · have hd : ∀ a ∈ pool l, ∀ b ∈ pool l, a.w = b.w → a = b := fun a ha b hb h =>
        (hd a ha b hb h).resolve_right (hs a ha)
      have e1 := kept_le hsrt hd a2 b2 b3 a4 b4 a5 b5 a6 b7
      have e2 := kept_le hsrt hd b2 a2 a3 b4 a4 b5 a5 b6 a7
      exact e2.eq_of_length (le_antisymm e2.length_le e1.length_le)
    · push Not at hs
      obtain ⟨_, _, _, hlim, hnn, hex⟩ := hs
      have c1 := kept_pos hlim a2 a4 a5 a7 hnn hex
      have c2 := kept_pos hlim b2 b4 b5 b7 hnn hex
      have flt : ∀ {k d : List (Cmp X K)}, (k ++ d).Perm (pool l) → (∀ a ∈ k, 0 < a.w) →
          (k ++ d.filter fun a => decide (0 < a.w)).Perm ((pool l).filter fun a => decide (0 < a.w)) := by
        intro k d h1 h2
        have := h1.filter fun a => decide (0 < a.w)
        rw [List.filter_append, List.filter_eq_self.2 (fun a ha => by simpa using h2 a ha)] at this
        exact this
      have hd : ∀ a ∈ (pool l).filter fun a => decide (0 < a.w), ∀ b ∈ (pool l).filter fun a => decide (0 < a.w),
          a.w = b.w → a = b := by
        intro a ha b hb h
        obtain ⟨ha, ha2⟩ := List.mem_filter.1 ha
        exact (hd a ha b (List.mem_filter.1 hb).1 h).resolve_right fun hx => by
          have := hx.1
          simp only [decide_eq_true_eq] at ha2
          exact absurd this ha2.ne'
      have end' : ∀ {k d : List (Cmp X K)}, (k ++ d).Perm (pool l) →
          (k.length = mx ∨ d = [] ∨ ∃ x ∈ d, (∀ b ∈ d, b.w ≤ x.w) ∧ tooLight lim x.w ((k.map Cmp.w).sum + x.w)) →
          (k.length = mx ∨ (d.filter fun a => decide (0 < a.w)) = [] ∨ ∃ x ∈ d.filter fun a => decide (0 < a.w),
            (∀ b ∈ d.filter fun a => decide (0 < a.w), b.w ≤ x.w) ∧ tooLight lim x.w ((k.map Cmp.w).sum + x.w)) := by
        intro k d _ h
        rcases h with h | h | ⟨x, hx, h1, h2⟩
        · exact Or.inl h
        · exact Or.inr (Or.inl (by rw [h]; rfl))
        · by_cases hx0 : 0 < x.w
          · exact Or.inr (Or.inr ⟨x, List.mem_filter.2 ⟨hx, by simpa using hx0⟩,
              fun b hb => h1 b (List.mem_filter.1 hb).1, h2⟩)
          · refine Or.inr (Or.inl (List.filter_eq_nil_iff.2 fun b hb => ?_))
            have := h1 b hb
            simp only [decide_eq_true_eq]
            exact fun h => hx0 (h.trans_le this)
      have e1 := kept_le hsrt hd (flt a2 c1) (flt b2 c2) b3 a4 b4 (fun a ha b hb => a5 a ha b (List.mem_filter.1 hb).1)
        (fun a ha b hb => b5 a ha b (List.mem_filter.1 hb).1) (end' a2 a6) b7
      have e2 := kept_le hsrt hd (flt b2 c2) (flt a2 c1) a3 b4 a4 (fun a ha b hb => b5 a ha b (List.mem_filter.1 hb).1)
        (fun a ha b hb => a5 a ha b (List.mem_filter.1 hb).1) (end' b2 b6) a7
      exact e2.eq_of_length (le_antisymm e2.length_le e1.length_le)
  rw [a1, b1, this]

/-- Two mixtures of weights 1/2 and 1/3, either way round. -/
example : join exSort (1/100 : ℚ) 10 [1/2, 1/3] [[⟨1, 3/4⟩, ⟨2, 1/4⟩], [⟨3, 1⟩]] =
    join exSort (1/100) 10 [1/3, 1/2] [[⟨3, 1⟩], [⟨1, 3/4⟩, ⟨2, 1/4⟩]] :=
  join_order (l := [(1/2, [⟨1, 3/4⟩, ⟨2, 1/4⟩]), (1/3, [⟨3, 1⟩])])
    (l' := [(1/3, [⟨3, 1⟩]), (1/2, [⟨1, 3/4⟩, ⟨2, 1/4⟩])]) exSort_ok _ _ (List.Perm.swap _ _ _)
    (by simp) (by
      intro a ha b hb
      simp only [pool, List.flatMap_cons, List.flatMap_nil, List.map_cons, List.map_nil, List.append_nil,
        List.cons_append, List.nil_append, List.mem_cons, List.not_mem_nil, or_false] at ha hb
      rcases ha with rfl | rfl | rfl <;> rcases hb with rfl | rfl | rfl <;> norm_num)

end Verif.GM
