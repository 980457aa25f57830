import Verif.RTree.Insert

/-! Helper lemmas: removal. -/

namespace Verif.RTree

variable {D : Type} [DecidableEq D] {A : Areas} {Bd : Rect → Prop}

theorem disconnect_spec (bs : List (Branch D)) (i : Nat) (h : i < bs.length) :
    ∃ bs', disconnect bs i = some bs' ∧ bs.Perm (bs[i] :: bs') ∧ bs'.length + 1 = bs.length := by
  have hne : bs ≠ [] := by intro he; subst he; simp at h
  have hl : bs.getLast? = some (bs.getLast hne) := List.getLast?_eq_getLast_of_ne_nil hne
  refine ⟨(bs.set i (bs.getLast hne)).dropLast, ?_, ?_, ?_⟩
  · unfold disconnect; rw [hl]; simp [h]
  · have hl2 : (bs.set i (bs.getLast hne)) ≠ [] := by simpa using hne
    have hd : bs = bs.dropLast ++ [bs.getLast hne] := (List.dropLast_append_getLast hne).symm
    generalize hb : bs.getLast hne = z at *
    generalize hp : bs.dropLast = p at *
    subst hd
    by_cases hip : i < p.length
    · rw [List.set_append_left _ _ hip, List.dropLast_concat, List.getElem_append_left hip]
      refine List.perm_append_comm.trans ?_
      simp only [List.singleton_append]
      refine ((perm_eraseIdx p i hip).cons z).trans ?_
      refine (List.Perm.swap _ _ _).trans ?_
      exact (set_perm p i hip z).symm.cons _
    · have : i = p.length := by simp at h; omega
      subst this
      simp
  · simp; omega

theorem findData_spec (d : D) (bs : List (Branch D)) (k : Nat) (hbs : ∀ b ∈ bs, BWF 0 b) :
    (findData d k bs = none ∧ ∀ e ∈ bs.flatMap (bitems 0), e.2 ≠ d) ∨
    (∃ i, findData d k bs = some (k + i) ∧ ∃ r, bs[i]? = some (r, .data d)) := by
  induction bs generalizing k with
  | nil => left; simp [findData]
  | cons b bs ih =>
    obtain ⟨r, t⟩ := b
    have hb := hbs (r, t) (by simp)
    cases t with
    | node l c => exact hb.elim
    | data e =>
      simp only [findData]
      by_cases he : e = d
      · right
        subst he
        exact ⟨0, by simp, r, by simp⟩
      · rw [if_neg he]
        rcases ih (k+1) (fun b hb => hbs b (by simp [hb])) with ⟨h1, h2⟩ | ⟨i, h1, h2⟩
        · left
          refine ⟨h1, ?_⟩
          intro e' he'
          simp only [List.flatMap_cons, bitems, List.mem_append, List.mem_singleton] at he'
          rcases he' with rfl | he'
          · exact he
          · exact h2 e' he'
        · right
          exact ⟨i+1, by rw [h1]; congr 1; omega, by simpa using h2⟩

/-- What `RemoveRectRec` does to a level-`n` node. -/
def RemoveResult (n : Nat) (r : Rect) (d : D) (bs : List (Branch D)) :
    Option (Tree D × List (Tree D)) → Prop
  | none => (r, d) ∉ bs.flatMap (bitems n)
  | some (t', list) => ∃ bs', t' = .node n bs' ∧ bs'.length ≤ bs.length ∧
      bs.length ≤ bs'.length + 1 ∧ (∀ b ∈ bs', BWF n b) ∧
      (∀ nd ∈ list, ∃ k, k < n ∧ NWF k 0 nd) ∧
      ∃ r', (bs.flatMap (bitems n)).Perm
        ((r', d) :: (bs'.flatMap (bitems n) ++ list.flatMap items))

theorem removeLoop_spec (n : Nat) (r : Rect) (d : D)
    (rec : Tree D → Option (Option (Tree D × List (Tree D)))) (bs : List (Branch D)) (k : Nat)
    (hbs : ∀ b ∈ bs, BWF (n+1) b)
    (hrec : ∀ cbs : List (Branch D), (∀ b ∈ cbs, BWF n b) →
      ∃ res, rec (.node n cbs) = some res ∧ RemoveResult n r d cbs res) :
    (removeLoop rec r k bs = some none ∧ (r, d) ∉ bs.flatMap (bitems (n+1))) ∨
    (∃ i t' list, removeLoop rec r k bs = some (some (k + i, t', list)) ∧
      ∃ br cbs, bs[i]? = some (br, .node n cbs) ∧ RemoveResult n r d cbs (some (t', list))) := by
  induction bs generalizing k with
  | nil => left; simp [removeLoop]
  | cons b bs ih =>
    obtain ⟨br, t⟩ := b
    have hb := hbs (br, t) (by simp)
    have htight := hb.tight
    have hvalid := hb.item_valid
    cases t with
    | data e => exact hb.elim
    | node l cbs =>
      obtain ⟨rfl, h1, h2, h3, _⟩ := hb
      obtain ⟨res, e, hres⟩ := hrec cbs h3
      have ih' := ih (k+1) (fun b hb => hbs b (by simp [hb]))
      have hcont : (r, d) ∉ bitems (n+1) (br, Tree.node (n:Int) cbs) →
          (removeLoop rec r (k+1) bs = some none ∧
            (r, d) ∉ ((br, Tree.node (n:Int) cbs) :: bs).flatMap (bitems (n+1))) ∨
          (∃ i t' list, removeLoop rec r (k+1) bs = some (some (k + i, t', list)) ∧
            ∃ br' cbs', ((br, Tree.node (n:Int) cbs) :: bs)[i]? = some (br', .node n cbs') ∧
              RemoveResult n r d cbs' (some (t', list))) := by
        intro hno
        rcases ih' with ⟨a1, a2⟩ | ⟨i, t', list, a1, br', cbs', a2, a3⟩
        · left
          refine ⟨a1, ?_⟩
          simp only [List.flatMap_cons, List.mem_append, not_or]
          exact ⟨hno, a2⟩
        · right
          exact ⟨i+1, t', list, by rw [a1]; congr 3; omega, br', cbs', by simpa using a2, a3⟩
      rw [removeLoop]
      by_cases ho : overlap r br = true
      · rw [if_pos ho]
        simp only [e]
        cases res with
        | none => simp only; exact hcont hres
        | some p =>
          right
          exact ⟨0, p.1, p.2, rfl, br, cbs, rfl, hres⟩
      · rw [if_neg ho]
        apply hcont
        intro hmem
        apply ho
        exact overlap_mono ((htight br).1 (Rect.Sub.refl _) _ hmem)
          (overlap_self (hvalid _ hmem))

theorem leaf_result (r : Rect) (d : D) (bs : List (Branch D)) (hbs : ∀ b ∈ bs, BWF 0 b) :
    ∃ res, (match findData d 0 bs with
      | none => some none
      | some i => (disconnect bs i).map fun bs' =>
          (some (Tree.node 0 bs', []) : Option (Tree D × List (Tree D)))) = some res ∧
      RemoveResult 0 r d bs res := by
  rcases findData_spec d bs 0 hbs with ⟨h1, h2⟩ | ⟨i, h1, br, h2⟩
  · rw [h1]
    exact ⟨none, rfl, fun h => h2 _ h rfl⟩
  · rw [h1, zero_add]
    obtain ⟨hi, hbi⟩ := List.getElem?_eq_some_iff.1 h2
    obtain ⟨bs', e, hp, hl⟩ := disconnect_spec bs i hi
    rw [hbi] at hp
    refine ⟨some (.node 0 bs', []), by simp [e], bs', rfl, by omega, by omega, ?_, by simp, br, ?_⟩
    · intro b hb
      exact hbs b (hp.mem_iff.2 (by simp [hb]))
    · simpa [bitems] using perm_flatMap (bitems 0) hp

theorem removeRec_spec (n : Nat) (r : Rect) (d : D) (bs : List (Branch D))
    (hbs : ∀ b ∈ bs, BWF n b) :
    ∃ res, removeRec r d n (.node n bs) = some res ∧ RemoveResult n r d bs res := by
  induction n generalizing bs with
  | zero =>
    obtain ⟨res, e, h⟩ := leaf_result r d bs hbs
    refine ⟨res, ?_, h⟩
    simp only [removeRec, Nat.cast_zero, if_true]
    cases hf : findData d 0 bs <;> rw [hf] at e <;> exact e
  | succ n ih =>
    simp only [removeRec]
    rw [if_neg (by omega), if_pos (by omega)]
    rcases removeLoop_spec n r d (removeRec r d n) bs 0 hbs ih with
      ⟨h1, h2⟩ | ⟨i, t', list, h1, br, cbs, h2, cbs', rfl, l1, l2, w, hlist, r', hp⟩
    · rw [h1]
      exact ⟨none, rfl, h2⟩
    · rw [h1, zero_add]
      simp only [h2]
      obtain ⟨hi, hbi⟩ := List.getElem?_eq_some_iff.1 h2
      have hperm := perm_flatMap (bitems (n+1)) (perm_eraseIdx bs i hi)
      rw [hbi] at hperm
      simp only [List.flatMap_cons] at hperm
      have hbw := hbs _ (List.getElem_mem hi)
      rw [hbi] at hbw
      obtain ⟨_, k1, k2, k3, _⟩ := hbw
      have hitems : items (Tree.node (n:Int) cbs') = cbs'.flatMap (bitems n) := by
        simp [items, Tree.branches, Tree.level]
      by_cases hc : (Tree.node (n:Int) cbs').count ≥ MINNODES
      · rw [if_pos hc]
        have hcl : MINNODES ≤ cbs'.length := hc
        have hnew := BWF.of_nwf (n := n) (t := Tree.node (n:Int) cbs') ⟨rfl, hcl, by omega, w⟩
        refine ⟨_, rfl, _, rfl, by simp, by simp, ?_, ?_, r', ?_⟩
        · intro b hb
          rcases List.mem_or_eq_of_mem_set hb with hb | rfl
          · exact hbs b hb
          · exact hnew
        · intro nd hnd
          obtain ⟨k, hk, hk'⟩ := hlist nd hnd
          exact ⟨k, by omega, hk'⟩
        · refine hperm.trans ?_
          have h3 := perm_flatMap (bitems (n+1)) (set_perm bs i hi
            (nodeCover (Tree.node (n:Int) cbs').branches, Tree.node (n:Int) cbs'))
          simp only [List.flatMap_cons] at h3
          refine List.Perm.trans ?_ ((h3.symm.append_right _).cons _)
          simp only [bitems]
          refine (hp.append_right _).trans ?_
          simp only [List.cons_append, List.append_assoc]
          refine List.Perm.cons _ (List.Perm.append_left _ List.perm_append_comm)
      · rw [if_neg hc]
        obtain ⟨bs', e, hp2, hl⟩ := disconnect_spec bs i hi
        refine ⟨some (.node ((n+1 : Nat) : Int) bs', .node n cbs' :: list), by simp [e], bs', rfl,
          by omega, by omega, ?_, ?_, r', ?_⟩
        · intro b hb
          exact hbs b (hp2.mem_iff.2 (by simp [hb]))
        · intro nd hnd
          rcases List.mem_cons.1 hnd with rfl | hnd
          · exact ⟨n, by omega, rfl, by simp, by omega, w⟩
          · obtain ⟨k, hk, hk'⟩ := hlist nd hnd
            exact ⟨k, by omega, hk'⟩
        · have h3 := perm_flatMap (bitems (n+1)) hp2
          rw [hbi] at h3
          simp only [List.flatMap_cons, bitems] at h3
          refine h3.trans ?_
          simp only [List.flatMap_cons, hitems]
          refine (hp.append_right _).trans ?_
          simp only [List.cons_append]
          refine List.Perm.cons _ ?_
          exact List.perm_append_comm

theorem reinsertBranches_spec (hA : A.Ok Bd) (k : Nat) (bs : List (Branch D)) (n lo : Nat) (t : Tree D)
    (hk : k ≤ n) (hbs : ∀ b ∈ bs, BWF k b) (ht : NWF n lo t) (hlo : 0 < n → 1 ≤ lo)
    (hlo2 : lo ≤ 2) (hpos : 0 < n) (hi : InBd Bd (bs.flatMap (bitems k)))
    (his : InBd Bd (items t)) :
    ∃ t' n', reinsertBranches A (k : Int) bs t = some t' ∧ n ≤ n' ∧ NWF n' lo t' ∧
      (items t').Perm (bs.flatMap (bitems k) ++ items t) := by
  induction bs generalizing n t with
  | nil => exact ⟨t, n, rfl, le_refl _, ht, by simp⟩
  | cons b bs ih =>
    obtain ⟨t1, n1, e1, h1, w1, p1⟩ := insertRect_spec hA n k lo b.1 b.2 t hk
      (hbs b (by simp)) ht hlo hlo2 (hi.branch (by simp)) his
    obtain ⟨t2, n2, e2, h2, w2, p2⟩ := ih n1 t1 (by omega) (fun b hb => hbs b (by simp [hb])) w1
      (by intro _; exact hlo hpos) (by omega) (by
        rw [List.flatMap_cons] at hi; exact hi.right) (((hi.branch (by simp)).append his).perm p1)
    refine ⟨t2, n2, by simp [reinsertBranches, e1, e2], by omega, w2, p2.trans ?_⟩
    refine (p1.append_left _).trans ?_
    simp only [List.flatMap_cons]
    rw [← List.append_assoc]
    refine List.Perm.append_right _ List.perm_append_comm

theorem reinsertAll_spec (hA : A.Ok Bd) (list : List (Tree D)) (n lo : Nat) (t : Tree D)
    (hl : ∀ nd ∈ list, ∃ k, k < n ∧ NWF k 0 nd) (ht : NWF n lo t) (hlo : 0 < n → 1 ≤ lo)
    (hlo2 : lo ≤ 2) (hi : InBd Bd (list.flatMap items)) (his : InBd Bd (items t)) :
    ∃ t' n', reinsertAll A list t = some t' ∧ n ≤ n' ∧ NWF n' lo t' ∧
      (items t').Perm (list.flatMap items ++ items t) := by
  induction list generalizing n t with
  | nil => exact ⟨t, n, rfl, le_refl _, ht, by simp⟩
  | cons nd list ih =>
    obtain ⟨k, hk, hw⟩ := hl nd (by simp)
    cases nd with
    | data d => exact hw.elim
    | node l bs =>
      obtain ⟨rfl, _, _, w⟩ := hw
      have hit : items (Tree.node (k:Int) bs) = bs.flatMap (bitems k) := by
        simp [items, Tree.branches, Tree.level]
      rw [List.flatMap_cons, hit] at hi
      obtain ⟨t1, n1, e1, h1, w1, p1⟩ := reinsertBranches_spec hA k bs n lo t (by omega) w ht hlo
        hlo2 (by omega) hi.left his
      obtain ⟨t2, n2, e2, h2, w2, p2⟩ := ih n1 t1 (by
        intro nd hnd
        obtain ⟨k', hk', hw'⟩ := hl nd (by simp [hnd])
        exact ⟨k', by omega, hw'⟩) w1 (by intro _; exact hlo (by omega)) hi.right
        ((hi.left.append his).perm p1)
      refine ⟨t2, n2, by simp [reinsertAll, Tree.level, Tree.branches, e1, e2], by omega, w2,
        p2.trans ?_⟩
      refine (p1.append_left _).trans ?_
      simp only [List.flatMap_cons]
      rw [← List.append_assoc]
      refine List.Perm.append_right _ ?_
      have : items (Tree.node (k:Int) bs) = bs.flatMap (bitems k) := by
        simp [items, Tree.branches, Tree.level]
      rw [this]
      exact List.perm_append_comm

theorem shrinkRoot_spec (t : Tree D) (n : Nat) (h : NWF n 1 t) (hn : 0 < n) :
    WF (shrinkRoot t) ∧ items (shrinkRoot t) = items t := by
  cases t with
  | data d => exact h.elim
  | node l bs =>
    obtain ⟨rfl, h1, h2, h3⟩ := h
    match bs with
    | [] => simp at h1
    | [(r, child)] =>
      have hs : shrinkRoot (Tree.node (n:Int) [(r, child)]) = child := by
        simp [shrinkRoot, hn]
      obtain ⟨m, rfl⟩ : ∃ m, n = m + 1 := ⟨n - 1, by omega⟩
      have hb := h3 (r, child) (by simp)
      rw [hs]
      cases child with
      | data d => exact hb.elim
      | node l cbs =>
        obtain ⟨rfl, k1, k2, k3, _⟩ := hb
        refine ⟨?_, ?_⟩
        · cases m with
          | zero => exact Or.inl ⟨rfl, by omega, k2, k3⟩
          | succ m => exact Or.inr ⟨m, rfl, le_trans (by decide) k1, k2, k3⟩
        · have : ((m : Int) + 1).toNat = m + 1 := by omega
          simp [items, Tree.branches, Tree.level, this, bitems]
    | a :: b :: rest =>
      have hs : shrinkRoot (Tree.node (n:Int) (a :: b :: rest)) = .node n (a :: b :: rest) := by
        simp [shrinkRoot]
      rw [hs]
      refine ⟨Or.inr ⟨n - 1, ?_⟩, rfl⟩
      have : n - 1 + 1 = n := by omega
      rw [this]
      exact ⟨rfl, by simp, h2, h3⟩

theorem shrinkRoot_leaf (bs : List (Branch D)) :
    shrinkRoot (Tree.node 0 bs) = Tree.node 0 bs := by
  unfold shrinkRoot
  split
  · rename_i h; injection h with h1 h2; subst h1; simp [h2]
  · rfl

/-- Removal from a well-formed tree. -/
theorem removeRectWith_spec (hA : A.Ok Bd) (r : Rect) (d : D) (t : Tree D) (ht : WF t)
    (his : InBd Bd (items t)) :
    ∃ b t', removeRectWith A r d t = some (b, t') ∧ WF t' ∧
      ((b = true ∧ t' = t ∧ (r, d) ∉ items t) ∨
       (b = false ∧ ∃ r', (items t).Perm ((r', d) :: items t'))) := by
  have key : ∃ n lo, NWF n lo t ∧ (n = 0 ∧ lo = 0 ∨ 0 < n ∧ lo = 2) := by
    rcases ht with h | ⟨n, h⟩
    · exact ⟨0, 0, h, Or.inl ⟨rfl, rfl⟩⟩
    · exact ⟨n+1, 2, h, Or.inr ⟨by omega, rfl⟩⟩
  obtain ⟨n, lo, hw, hn⟩ := key
  cases t with
  | data d => exact hw.elim
  | node l bs =>
    obtain ⟨rfl, h1, h2, h3⟩ := hw
    obtain ⟨res, e, hres⟩ := removeRec_spec n r d bs h3
    have hit : items (Tree.node (n:Int) bs) = bs.flatMap (bitems n) := by
      simp [items, Tree.branches, Tree.level]
    unfold removeRectWith
    simp only [Tree.level, Int.toNat_natCast, e]
    cases res with
    | none =>
      exact ⟨true, _, rfl, ht, Or.inl ⟨rfl, rfl, by rw [hit]; exact hres⟩⟩
    | some p =>
      obtain ⟨t', list⟩ := p
      obtain ⟨bs', rfl, l1, l2, w, hlist, r', hp⟩ := hres
      have hit' : items (Tree.node (n:Int) bs') = bs'.flatMap (bitems n) := by
        simp [items, Tree.branches, Tree.level]
      rw [hit] at his
      have hin := his.perm hp.symm
      have hin1 : InBd Bd (bs'.flatMap (bitems n)) := fun e he => hin e (by simp [he])
      have hin2 : InBd Bd (list.flatMap items) := fun e he =>
        hin e (List.mem_cons_of_mem _ (List.mem_append_right _ he))
      rw [← hit'] at hin1
      rcases hn with ⟨rfl, rfl⟩ | ⟨hn, rfl⟩
      · obtain ⟨t2, n2, e2, h22, w2, p2⟩ := reinsertAll_spec hA list 0 0 (.node 0 bs')
          hlist ⟨rfl, by omega, by omega, w⟩ (by omega) (by omega) hin2 hin1
        have hle : list = [] := by
          cases list with
          | nil => rfl
          | cons x l => obtain ⟨k, hk, _⟩ := hlist x (by simp); omega
        subst hle
        simp only [reinsertAll] at e2
        injection e2 with e2
        subst e2
        refine ⟨false, Tree.node 0 bs', ?_, Or.inl ⟨rfl, by omega, by omega, w⟩, Or.inr ⟨rfl, r', ?_⟩⟩
        · simp [reinsertAll, shrinkRoot_leaf]
        · rw [hit]; simp only [Nat.cast_zero] at hit'; rw [hit']; simpa using hp
      · obtain ⟨t2, n2, e2, h22, w2, p2⟩ := reinsertAll_spec hA list n 1 (.node n bs')
          hlist ⟨rfl, by omega, by omega, w⟩ (by omega) (by omega) hin2 hin1
        obtain ⟨sw, si⟩ := shrinkRoot_spec t2 n2 w2 (by omega)
        refine ⟨false, shrinkRoot t2, by simp [e2], sw, Or.inr ⟨rfl, r', ?_⟩⟩
        rw [hit, si]
        refine hp.trans (List.Perm.cons _ ?_)
        refine List.Perm.trans ?_ p2.symm
        rw [hit']
        exact List.perm_append_comm

theorem removeRect_spec (r : Rect) (d : D) (t : Tree D) (ht : WF t) :
    ∃ b t', removeRect r d t = some (b, t') ∧ WF t' ∧
      ((b = true ∧ t' = t ∧ (r, d) ∉ items t) ∨
       (b = false ∧ ∃ r', (items t).Perm ((r', d) :: items t'))) :=
  removeRectWith_spec exact_ok r d t ht (inBd_noBd _)

end Verif.RTree
