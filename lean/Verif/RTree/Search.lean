import Verif.RTree.Insert

/-! Helper lemmas: searching and counting. -/

namespace Verif.RTree

variable {D σ : Type}

/-- The payloads a search of `r` should report, in tree order. -/
def hits (r : Rect) (l : List (Rect × D)) : List D := (l.filter fun e => overlap r e.1).map (·.2)

theorem hits_append (r : Rect) (l m : List (Rect × D)) : hits r (l ++ m) = hits r l ++ hits r m := by
  simp [hits]

theorem feed_append (cb : Callback σ D) (s : σ) (l m : List D) :
    feed cb s (l ++ m) =
      if (feed cb s l).2.2 then
        ((feed cb (feed cb s l).1 m).1, (feed cb s l).2.1 + (feed cb (feed cb s l).1 m).2.1,
          (feed cb (feed cb s l).1 m).2.2)
      else feed cb s l := by
  induction l generalizing s with
  | nil => simp [feed]
  | cons d l ih =>
    have hcons : ∀ l', feed cb s (d :: l') = if (cb s d).2 then
        ((feed cb (cb s d).1 l').1, (feed cb (cb s d).1 l').2.1 + 1, (feed cb (cb s d).1 l').2.2)
        else ((cb s d).1, 1, false) := fun l' => by rw [feed]
    rw [List.cons_append, hcons, hcons, ih]
    cases h : (cb s d).2
    · simp
    · cases h2 : (feed cb (cb s d).1 l).2.2
      · simp [h2]
      · simp [h2]; omega

theorem searchLeaf_spec (cb : Callback σ D) (r : Rect) (bs : List (Branch D)) (s : σ) (c : Nat)
    (hbs : ∀ b ∈ bs, BWF 0 b) :
    searchLeaf cb r bs (s, c) =
      some (((feed cb s (hits r (bs.flatMap (bitems 0)))).1,
        c + (feed cb s (hits r (bs.flatMap (bitems 0)))).2.1),
        (feed cb s (hits r (bs.flatMap (bitems 0)))).2.2) := by
  induction bs generalizing s c with
  | nil => simp [searchLeaf, hits, feed]
  | cons b bs ih =>
    obtain ⟨br, t⟩ := b
    have hb := hbs (br, t) (by simp)
    have ih' := fun s c => ih s c (fun b hb => hbs b (by simp [hb]))
    cases t with
    | node l x => exact hb.elim
    | data d =>
      simp only [searchLeaf, List.flatMap_cons, hits_append]
      by_cases ho : overlap r br = true
      · have : hits r (bitems 0 (br, Tree.data d)) = [d] := by simp [hits, bitems, ho]
        rw [if_pos ho, this]
        simp only [List.singleton_append, feed]
        by_cases hc : (cb s d).2 = true
        · rw [if_pos hc, if_pos hc, ih']
          simp only [Option.some.injEq, Prod.mk.injEq, true_and, and_true]
          omega
        · rw [if_neg hc, if_neg hc]
      · have : hits r (bitems 0 (br, Tree.data d)) = [] := by simp [hits, bitems, ho]
        rw [if_neg ho, this, ih']
        simp

theorem searchLoop_spec (n : Nat) (cb : Callback σ D) (r : Rect)
    (rec : Tree D → σ × Nat → Option ((σ × Nat) × Bool)) (bs : List (Branch D)) (s : σ) (c : Nat)
    (hbs : ∀ b ∈ bs, BWF (n+1) b)
    (hrec : ∀ (cbs : List (Branch D)) (s : σ) (c : Nat), (∀ b ∈ cbs, BWF n b) →
      rec (.node n cbs) (s, c) =
      some (((feed cb s (hits r (cbs.flatMap (bitems n)))).1,
        c + (feed cb s (hits r (cbs.flatMap (bitems n)))).2.1),
        (feed cb s (hits r (cbs.flatMap (bitems n)))).2.2)) :
    searchLoop rec r bs (s, c) =
      some (((feed cb s (hits r (bs.flatMap (bitems (n+1))))).1,
        c + (feed cb s (hits r (bs.flatMap (bitems (n+1))))).2.1),
        (feed cb s (hits r (bs.flatMap (bitems (n+1))))).2.2) := by
  induction bs generalizing s c with
  | nil => simp [searchLoop, hits, feed]
  | cons b bs ih =>
    obtain ⟨br, t⟩ := b
    have hb := hbs (br, t) (by simp)
    have htight := hb.tight
    have ih' := fun s c => ih s c (fun b hb => hbs b (by simp [hb]))
    cases t with
    | data d => exact hb.elim
    | node l cbs =>
      obtain ⟨rfl, h1, h2, h3, _⟩ := hb
      have hbi : bitems (n+1) (br, Tree.node (n:Int) cbs) = cbs.flatMap (bitems n) := rfl
      simp only [searchLoop, List.flatMap_cons, hits_append]
      by_cases ho : overlap r br = true
      · rw [if_pos ho, hrec cbs s c h3, hbi, feed_append]
        by_cases hc : (feed cb s (hits r (cbs.flatMap (bitems n)))).2.2 = true
        · simp only [hc, if_true]
          rw [ih']
          simp only [Option.some.injEq, Prod.mk.injEq, true_and, and_true]
          omega
        · simp [hc]
      · have : hits r (bitems (n+1) (br, Tree.node (n:Int) cbs)) = [] := by
          simp only [hits, List.map_eq_nil_iff, List.filter_eq_nil_iff]
          intro e he hov
          exact ho (overlap_mono ((htight br).1 (Rect.Sub.refl _) e he) hov)
        rw [if_neg ho, this, ih']
        simp

theorem searchRec_spec (n : Nat) (cb : Callback σ D) (r : Rect) (bs : List (Branch D)) (s : σ)
    (c : Nat) (hbs : ∀ b ∈ bs, BWF n b) :
    searchRec cb r n (.node n bs) (s, c) =
      some (((feed cb s (hits r (bs.flatMap (bitems n)))).1,
        c + (feed cb s (hits r (bs.flatMap (bitems n)))).2.1),
        (feed cb s (hits r (bs.flatMap (bitems n)))).2.2) := by
  induction n generalizing bs s c with
  | zero => simp only [searchRec, Nat.cast_zero, if_true]; exact searchLeaf_spec cb r bs s c hbs
  | succ n ih =>
    simp only [searchRec]
    rw [if_neg (by omega), if_pos (by omega)]
    exact searchLoop_spec n cb r _ bs s c hbs (fun cbs s c h => ih cbs s c h)

theorem WF.nwf {t : Tree D} (h : WF t) : ∃ n, NWF n 0 t := by
  rcases h with h | ⟨n, h⟩
  · exact ⟨0, h⟩
  · refine ⟨n+1, ?_⟩
    cases t with
    | data d => exact h.elim
    | node l bs => exact ⟨h.1, by omega, h.2.2⟩

theorem search_spec (cb : Callback σ D) (r : Rect) (s : σ) (t : Tree D) (ht : WF t) :
    search cb r s t = some ((feed cb s (hits r (items t))).1, (feed cb s (hits r (items t))).2.1) := by
  obtain ⟨n, hn⟩ := ht.nwf
  cases t with
  | data d => exact hn.elim
  | node l bs =>
    obtain ⟨rfl, _, _, h3⟩ := hn
    simp only [search, Tree.level, Int.toNat_natCast]
    rw [searchRec_spec n cb r bs s 0 h3]
    simp [items, Tree.branches, Tree.level]

theorem countRec_spec (n : Nat) (bs : List (Branch D)) (c : Nat) (hbs : ∀ b ∈ bs, BWF n b) :
    countRec n (.node n bs) c = c + (bs.flatMap (bitems n)).length := by
  induction n generalizing bs c with
  | zero =>
    have : (bs.flatMap (bitems 0)).length = bs.length := by
      induction bs with
      | nil => rfl
      | cons b bs ih =>
        obtain ⟨r, t⟩ := b
        cases t with
        | node l x => exact (hbs (r, Tree.node l x) (by simp)).elim
        | data d =>
          simp only [List.flatMap_cons, List.length_append, List.length_cons, bitems,
            ih (fun b hb => hbs b (by simp [hb]))]
          simp only [List.length_nil]; omega
    simp [countRec, Tree.count, Tree.branches, this]
  | succ n ih =>
    have : (Tree.node ((n+1 : Nat) : Int) bs).level > 0 := by simp [Tree.level]
    simp only [countRec, if_pos this, Tree.branches]
    clear this
    induction bs generalizing c with
    | nil => simp
    | cons b bs ih2 =>
      obtain ⟨r, t⟩ := b
      have hb := hbs (r, t) (by simp)
      cases t with
      | data d => exact hb.elim
      | node l cbs =>
        obtain ⟨rfl, _, _, h3, _⟩ := hb
        simp only [List.foldl_cons]
        rw [ih cbs c h3, ih2 (c := _) (fun b hb => hbs b (by simp [hb]))]
        simp only [List.flatMap_cons, List.length_append, bitems]
        omega

theorem count_spec (t : Tree D) (ht : WF t) : count t = (items t).length := by
  obtain ⟨n, hn⟩ := ht.nwf
  cases t with
  | data d => exact hn.elim
  | node l bs =>
    obtain ⟨rfl, _, _, h3⟩ := hn
    simp only [count, Tree.level, Int.toNat_natCast, countRec_spec n bs 0 h3]
    simp [items, Tree.branches, Tree.level]

end Verif.RTree
