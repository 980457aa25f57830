import Verif.Cluster.Model
import Verif.Cluster.CC
import Mathlib.Data.List.Sort
import Mathlib.Data.List.Nodup

/-! # Lemmas about `SILMB::cluster` -/

namespace Verif.Cluster

theorem sortPtr_perm (l : List Nat) : (sortPtr l).Perm l := List.perm_insertionSort _ l

theorem sortPtr_sorted (l : List Nat) : (sortPtr l).Pairwise (· ≤ ·) :=
  List.pairwise_insertionSort _ l

theorem mem_uniq (l : List Nat) (x : Nat) : x ∈ uniq l ↔ x ∈ l := by
  fun_induction uniq l with
  | case1 => simp
  | case2 => simp
  | case3 b l ih => rw [ih]; simp
  | case4 a b l h ih => simp [ih]

theorem uniq_sorted (l : List Nat) (h : l.Pairwise (· ≤ ·)) : (uniq l).Pairwise (· < ·) := by
  fun_induction uniq l with
  | case1 => simp
  | case2 => simp
  | case3 b l ih => exact ih (List.pairwise_cons.1 h).2
  | case4 a b l hab ih =>
    obtain ⟨h1, h2⟩ := List.pairwise_cons.1 h
    refine List.pairwise_cons.2 ⟨?_, ih h2⟩
    intro y hy
    rw [mem_uniq] at hy
    have hle := h1 b (by simp)
    rcases List.mem_cons.1 hy with rfl | hy
    · omega
    · have := (List.pairwise_cons.1 h2).1 y hy
      omega

theorem mem_dropWhile_lt (a : Nat) (b : List Nat) (hb : b.Pairwise (· < ·)) (x : Nat) :
    x ∈ b.dropWhile (· < a) ↔ x ∈ b ∧ a ≤ x := by
  induction b with
  | nil => simp
  | cons c b ih =>
    obtain ⟨h1, h2⟩ := List.pairwise_cons.1 hb
    by_cases hc : c < a
    · rw [List.dropWhile_cons_of_pos (by simpa using hc), ih h2, List.mem_cons]
      constructor
      · rintro ⟨h3, h4⟩; exact ⟨Or.inr h3, h4⟩
      · rintro ⟨rfl | h3, h4⟩
        · omega
        · exact ⟨h3, h4⟩
    · rw [List.dropWhile_cons_of_neg (by simpa using hc)]
      constructor
      · intro h
        refine ⟨h, ?_⟩
        rcases List.mem_cons.1 h with rfl | h
        · omega
        · have := h1 x h; omega
      · exact fun h => h.1

theorem setDiff_spec (a b : List Nat) (ha : a.Pairwise (· < ·)) (hb : b.Pairwise (· < ·)) :
    (setDiff a b).Pairwise (· < ·) ∧ ∀ x, x ∈ setDiff a b ↔ x ∈ a ∧ x ∉ b := by
  induction a generalizing b with
  | nil => simp [setDiff]
  | cons a as ih =>
    obtain ⟨h1, h2⟩ := List.pairwise_cons.1 ha
    have hd := mem_dropWhile_lt a b hb
    have hds : (b.dropWhile (· < a)).Pairwise (· < ·) :=
      List.Pairwise.sublist (List.dropWhile_sublist _) hb
    simp only [setDiff]
    cases hw : b.dropWhile (· < a) with
    | nil =>
      obtain ⟨i1, i2⟩ := ih [] h2 List.Pairwise.nil
      refine ⟨List.pairwise_cons.2 ⟨fun y hy => h1 y ((i2 y).1 hy).1, i1⟩, ?_⟩
      intro x
      simp only [List.mem_cons, i2, List.not_mem_nil, not_false_eq_true, and_true]
      constructor
      · intro h
        refine ⟨h, fun hx => ?_⟩
        have : x ∈ b.dropWhile (· < a) := (hd x).2 ⟨hx, by
          rcases h with rfl | h
          · exact Nat.le_refl _
          · exact Nat.le_of_lt (h1 x h)⟩
        rw [hw] at this
        simp at this
      · exact fun h => h.1
    | cons c cs =>
      rw [hw] at hds hd
      obtain ⟨d1, d2⟩ := List.pairwise_cons.1 hds
      have hac : a ≤ c := ((hd c).1 (List.mem_cons_self ..)).2
      by_cases hlt : a < c
      · simp only [hlt, if_true]
        obtain ⟨i1, i2⟩ := ih (c :: cs) h2 hds
        refine ⟨List.pairwise_cons.2 ⟨fun y hy => h1 y ((i2 y).1 hy).1, i1⟩, ?_⟩
        intro x
        rw [List.mem_cons, i2, List.mem_cons (l := as), hd]
        constructor
        · rintro (rfl | ⟨h3, h4⟩)
          · refine ⟨Or.inl rfl, fun hx => ?_⟩
            rcases List.mem_cons.1 ((hd x).2 ⟨hx, Nat.le_refl _⟩) with h | h
            · omega
            · have := d1 x h; omega
          · exact ⟨Or.inr h3, fun hx => h4 ⟨hx, Nat.le_of_lt (h1 x h3)⟩⟩
        · rintro ⟨rfl | h3, h4⟩
          · exact Or.inl rfl
          · exact Or.inr ⟨h3, fun hx => h4 hx.1⟩
      · obtain rfl : a = c := by omega
        simp only [hlt, if_false]
        obtain ⟨i1, i2⟩ := ih cs h2 d2
        refine ⟨i1, ?_⟩
        intro x
        rw [i2, List.mem_cons]
        constructor
        · rintro ⟨h3, h4⟩
          refine ⟨Or.inr h3, fun hx => ?_⟩
          have hax := h1 x h3
          rcases List.mem_cons.1 ((hd x).2 ⟨hx, Nat.le_of_lt hax⟩) with h | h
          · omega
          · exact h4 h
        · rintro ⟨rfl | h3, h4⟩
          · exact absurd ((hd x).1 (List.mem_cons_self ..)).1 h4
          · exact ⟨h3, fun hx => h4 ((hd x).1 (List.mem_cons_of_mem _ hx)).1⟩

theorem setCid_apply (l : List Nat) (cid : Nat) (f : Nat → Nat) (x : Nat) :
    setCid l cid f x = if x ∈ l then cid else f x := by
  unfold setCid
  induction l generalizing f with
  | nil => simp
  | cons a l ih =>
    rw [List.foldl_cons, ih]
    by_cases h1 : x ∈ l
    · simp [h1]
    · by_cases h2 : x = a
      · subst h2; simp
      · simp [h1, h2, Function.update_of_ne h2]

/-! ## The gating graph -/

theorem mem_foldl_push (r : Nat) (ts : List Nat) (mr : Nat → List Nat) (t x : Nat) :
    x ∈ (ts.foldl (fun mr t => Function.update mr t (mr t ++ [r])) mr) t ↔
      (x = r ∧ t ∈ ts) ∨ x ∈ mr t := by
  induction ts generalizing mr with
  | nil => simp
  | cons a ts ih =>
    rw [List.foldl_cons, ih]
    by_cases h : t = a
    · subst h
      simp only [Function.update_self, List.mem_append, List.mem_singleton, List.mem_cons]
      tauto
    · rw [Function.update_of_ne h]
      simp [h]

theorem mem_matchReports (q : Nat → List Nat) (rs : List Nat) (mr : Nat → List Nat) (t x : Nat) :
    x ∈ matchReports q rs mr t ↔ (x ∈ rs ∧ t ∈ q x) ∨ x ∈ mr t := by
  induction rs generalizing mr with
  | nil => simp [matchReports]
  | cons r rs ih =>
    rw [matchReports, ih, mem_foldl_push, List.mem_cons]
    constructor
    · rintro (⟨h1, h2⟩ | ⟨rfl, h⟩ | h)
      · exact Or.inl ⟨Or.inr h1, h2⟩
      · exact Or.inl ⟨Or.inl rfl, h⟩
      · exact Or.inr h
    · rintro (⟨rfl | h1, h2⟩ | h)
      · exact Or.inr (Or.inl ⟨rfl, h2⟩)
      · exact Or.inl ⟨h1, h2⟩
      · exact Or.inr (Or.inr h)

/-- The map that `cluster` builds. -/
def gateMap (q : Nat → List Nat) (n : Nat) : CMap :=
  ccBuild (ccCalls q (matchReports q (List.range n) fun _ => []) (List.range n))

theorem gateMap_spec (q : Nat → List Nat) (n : Nat) :
    MapOk (gateMap q n) ∧ (∀ x, x ∈ keys (gateMap q n) ↔ x < n) ∧
    ∀ a b, b ∈ mapGet a (gateMap q n) ↔ a < n ∧ b < n ∧ ∃ t, t ∈ q a ∧ t ∈ q b := by
  obtain ⟨h1, h2, h3⟩ := ccBuild_spec
    (ccCalls q (matchReports q (List.range n) fun _ => []) (List.range n)) []
    ⟨by simp [keys], by simp⟩
  refine ⟨h1, ?_, ?_⟩
  · intro x
    rw [gateMap, ccBuild, h2]
    simp only [CallNode, ccCalls, List.mem_flatMap, List.mem_range, List.mem_cons,
      CCCall.init.injEq, List.mem_map, reduceCtorEq, and_false, exists_false, or_false, false_or,
      CCCall.connect.injEq, keys, List.map_nil, List.not_mem_nil]
    constructor
    · rintro (⟨a, ha, rfl⟩ | ⟨cs, a, ha, t, _, rfl, _⟩)
      · exact ha
      · exact ha
    · intro hx; exact Or.inl ⟨x, hx, rfl⟩
  · intro a b
    rw [gateMap, ccBuild, h3]
    simp only [CallConn, ccCalls, List.mem_flatMap, List.mem_range, List.mem_cons, reduceCtorEq,
      List.mem_map, CCCall.connect.injEq, false_or]
    constructor
    · rintro (⟨cs, ⟨r, hr, t, ht, rfl, rfl⟩, hb⟩ | h)
      · rcases (mem_matchReports _ _ _ _ _).1 hb with ⟨hb, hbt⟩ | h
        · exact ⟨hr, List.mem_range.1 hb, t, ht, hbt⟩
        · simp at h
      · simp [mapGet] at h
    · rintro ⟨ha, hb, t, h4, h5⟩
      exact Or.inl ⟨_, ⟨a, ha, t, h4, rfl, rfl⟩,
        (mem_matchReports _ _ _ _ _).2 (Or.inl ⟨List.mem_range.2 hb, h5⟩)⟩

/-! ## The loop over components -/

theorem clusterLoop_eq (q : Nat → List Nat) (f : Nat) (m : CMap) (st : CState)
    (cs : List (List Nat)) (h : components f m = some cs) :
    clusterLoop q f m st = some (cs.foldl (fun st c => clusterBody q c st) st) := by
  induction f generalizing m st cs with
  | zero => simp [components] at h
  | succ f ih =>
    simp only [components] at h
    simp only [clusterLoop]
    cases hg : getComponent m with
    | none => simp [hg] at h
    | some o =>
      cases o with
      | none =>
        simp only [hg, Option.some.injEq] at h
        subst h
        rfl
      | some p =>
        obtain ⟨m', c⟩ := p
        simp only [hg, Option.map_eq_some_iff] at h
        obtain ⟨cs', h1, rfl⟩ := h
        exact ih m' _ cs' h1

/-- Targets of a component. -/
def ctOf (q : Nat → List Nat) (c : List Nat) : List Nat := uniq (sortPtr (c.flatMap q))

theorem mem_ctOf (q : Nat → List Nat) (c : List Nat) (t : Nat) :
    t ∈ ctOf q c ↔ ∃ r ∈ c, t ∈ q r := by
  rw [ctOf, mem_uniq, (sortPtr_perm _).mem_iff, List.mem_flatMap]

theorem ctOf_sorted (q : Nat → List Nat) (c : List Nat) : (ctOf q c).Pairwise (· < ·) :=
  uniq_sorted _ (sortPtr_sorted _)

theorem nodup_of_sorted {l : List Nat} (h : l.Pairwise (· < ·)) : l.Nodup :=
  h.imp (fun h => Nat.ne_of_lt h)

theorem sorted_of_nodup {l : List Nat} (h : l.Nodup) : (sortPtr l).Pairwise (· < ·) := by
  have h1 : (sortPtr l).Nodup := (sortPtr_perm l).nodup_iff.2 h
  exact ((sortPtr_sorted l).and h1).imp (fun ⟨a, b⟩ => Nat.lt_of_le_of_ne a b)

/-- `[(i, c₀, ct c₀), (i+1, c₁, ct c₁), …]`. -/
def mkClusters (i : Nat) : List (List Nat × List Nat) → List Cl
  | [] => []
  | p :: ps => ⟨i, p.1, p.2⟩ :: mkClusters (i + 1) ps

theorem mkClusters_append (i : Nat) (l l' : List (List Nat × List Nat)) :
    mkClusters i (l ++ l') = mkClusters i l ++ mkClusters (i + l.length) l' := by
  induction l generalizing i with
  | nil => simp [mkClusters]
  | cons p l ih => simp [mkClusters, ih, Nat.add_comm, Nat.add_left_comm]

theorem mkClusters_length (i : Nat) (l : List (List Nat × List Nat)) :
    (mkClusters i l).length = l.length := by
  induction l generalizing i with
  | nil => rfl
  | cons p l ih => simp [mkClusters, ih]

theorem mkClusters_getElem? (i j : Nat) (l : List (List Nat × List Nat)) :
    (mkClusters i l)[j]? = l[j]?.map fun p => ⟨i + j, p.1, p.2⟩ := by
  induction l generalizing i j with
  | nil => simp [mkClusters]
  | cons p l ih =>
    cases j with
    | zero => simp [mkClusters]
    | succ j => simp [mkClusters, ih, Nat.add_comm, Nat.add_left_comm]

theorem foldl_body (q : Nat → List Nat) (cs : List (List Nat)) (st : CState)
    (hnd : st.all.Nodup) :
    let st' := cs.foldl (fun st c => clusterBody q c st) st
    st'.clusters = st.clusters ++ mkClusters st.cid (cs.map fun c => (c, ctOf q c)) ∧
    st'.cid = st.cid + cs.length ∧
    st'.all.Nodup ∧ (∀ t, t ∈ st'.all ↔ t ∈ st.all ∧ ∀ c ∈ cs, t ∉ ctOf q c) ∧
    (∀ x, x ∉ cs.flatten → st'.rcid x = st.rcid x) ∧
    (∀ t, (∀ c ∈ cs, t ∉ ctOf q c) → st'.tcid t = st.tcid t) := by
  induction cs generalizing st with
  | nil => simp [mkClusters, hnd]
  | cons c cs ih =>
    have hd := setDiff_spec (sortPtr st.all) (ctOf q c) (sorted_of_nodup hnd) (ctOf_sorted q c)
    obtain ⟨i1, i2, i3, i4, i5, i6⟩ := ih (clusterBody q c st) (nodup_of_sorted hd.1)
    refine ⟨?_, ?_, i3, ?_, ?_, ?_⟩
    · rw [List.foldl_cons, i1]
      simp [clusterBody, mkClusters, ctOf]
    · rw [List.foldl_cons, i2]; simp [clusterBody]; omega
    · intro t
      rw [List.foldl_cons, i4]
      have := hd.2 t
      rw [(sortPtr_perm _).mem_iff] at this
      have e : (clusterBody q c st).all = setDiff (sortPtr st.all) (ctOf q c) := rfl
      rw [e, this]
      simp only [List.mem_cons, forall_eq_or_imp, and_assoc]
    · intro x hx
      simp only [List.flatten_cons, List.mem_append, not_or] at hx
      rw [List.foldl_cons, i5 x hx.2]
      simp [clusterBody, setCid_apply, hx.1]
    · intro t ht
      rw [List.foldl_cons, i6 t (fun c' h => ht c' (List.mem_cons_of_mem _ h))]
      have := ht c (List.mem_cons_self ..)
      have e : (clusterBody q c st).tcid = setCid (ctOf q c) st.cid st.tcid := rfl
      rw [e, setCid_apply, if_neg this]

theorem foldl_rcid (q : Nat → List Nat) (cs : List (List Nat)) (st : CState)
    (hnd : st.all.Nodup) (hc : cs.flatten.Nodup) (i : Nat) (c : List Nat) (hi : cs[i]? = some c)
    (x : Nat) (hx : x ∈ c) :
    (cs.foldl (fun st c => clusterBody q c st) st).rcid x = st.cid + i := by
  induction cs generalizing st i with
  | nil => simp at hi
  | cons c' cs ih =>
    rw [List.flatten_cons, List.nodup_append] at hc
    have hd := setDiff_spec (sortPtr st.all) (ctOf q c') (sorted_of_nodup hnd) (ctOf_sorted q c')
    have hnd' : (clusterBody q c' st).all.Nodup := nodup_of_sorted hd.1
    cases i with
    | zero =>
      simp only [List.getElem?_cons_zero, Option.some.injEq] at hi
      subst hi
      rw [List.foldl_cons, (foldl_body q cs _ hnd').2.2.2.2.1 x
        (fun h => hc.2.2 x hx x h rfl)]
      simp [clusterBody, setCid_apply, hx]
    | succ i =>
      rw [List.foldl_cons, ih _ hnd' hc.2.1 i (by simpa using hi)]
      simp [clusterBody]; omega

theorem foldl_tcid (q : Nat → List Nat) (cs : List (List Nat)) (st : CState)
    (hnd : st.all.Nodup) (hc : (cs.flatMap (ctOf q)).Nodup) (i : Nat) (c : List Nat)
    (hi : cs[i]? = some c) (x : Nat) (hx : x ∈ ctOf q c) :
    (cs.foldl (fun st c => clusterBody q c st) st).tcid x = st.cid + i := by
  induction cs generalizing st i with
  | nil => simp at hi
  | cons c' cs ih =>
    rw [List.flatMap_cons, List.nodup_append] at hc
    have hd := setDiff_spec (sortPtr st.all) (ctOf q c') (sorted_of_nodup hnd) (ctOf_sorted q c')
    have hnd' : (clusterBody q c' st).all.Nodup := nodup_of_sorted hd.1
    cases i with
    | zero =>
      simp only [List.getElem?_cons_zero, Option.some.injEq] at hi
      subst hi
      rw [List.foldl_cons, (foldl_body q cs _ hnd').2.2.2.2.2 x
        (fun c hc' h => hc.2.2 x hx x (List.mem_flatMap.2 ⟨c, hc', h⟩) rfl)]
      have e : (clusterBody q c' st).tcid = setCid (ctOf q c') st.cid st.tcid := rfl
      rw [e, setCid_apply, if_pos hx]; rfl
    | succ i =>
      rw [List.foldl_cons, ih _ hnd' hc.2.1 i (by simpa using hi)]
      simp [clusterBody]; omega

theorem singles_spec (ts : List Nat) (st : CState) (hnd : ts.Nodup) :
    let st' := clusterSingles ts st
    st'.clusters = st.clusters ++ mkClusters st.cid (ts.map fun t => ([], [t])) ∧
    st'.cid = st.cid + ts.length ∧ st'.rcid = st.rcid ∧
    (∀ t, t ∉ ts → st'.tcid t = st.tcid t) ∧
    (∀ i t, ts[i]? = some t → st'.tcid t = st.cid + i) := by
  induction ts generalizing st with
  | nil => simp [clusterSingles, mkClusters]
  | cons t ts ih =>
    obtain ⟨h1, h2⟩ := List.nodup_cons.1 hnd
    obtain ⟨i1, i2, i3, i4, i5⟩ := ih
      { st with
        clusters := st.clusters ++ [⟨st.cid, [], [t]⟩]
        tcid := Function.update st.tcid t st.cid
        cid := st.cid + 1 } h2
    refine ⟨?_, ?_, ?_, ?_, ?_⟩
    · rw [clusterSingles, i1]; simp [mkClusters]
    · rw [clusterSingles, i2]; simp; omega
    · rw [clusterSingles, i3]
    · intro x hx
      simp only [List.mem_cons, not_or] at hx
      rw [clusterSingles, i4 x hx.2]
      exact Function.update_of_ne hx.1 _ _
    · intro i x hi
      cases i with
      | zero =>
        simp only [List.getElem?_cons_zero, Option.some.injEq] at hi
        subst hi
        rw [clusterSingles, i4 t h1]
        simp
      | succ i =>
        rw [clusterSingles, i5 i x (by simpa using hi)]
        simp; omega

/-- Everything that is needed about the result of `cluster`. -/
theorem cluster_spec (q : Nat → List Nat) (n : Nat) (all : List Nat) (hall : all.Nodup)
    (rcid0 tcid0 : Nat → Nat) :
    ∃ (st : CState) (cs : List (List Nat)) (rest : List Nat), cluster q n all rcid0 tcid0 = some st ∧
      st.clusters = mkClusters 0
        (cs.map (fun c => (c, ctOf q c)) ++ rest.map fun t => ([], [t])) ∧
      st.cid = cs.length + rest.length ∧
      cs.flatten.Nodup ∧ (∀ x, x ∈ cs.flatten ↔ x < n) ∧ (∀ c ∈ cs, c ≠ []) ∧
      (∀ c ∈ cs, ∀ a ∈ c, ∀ b, b ∈ c ↔
        Relation.ReflTransGen (fun a b => a < n ∧ b < n ∧ ∃ t, t ∈ q a ∧ t ∈ q b) a b) ∧
      (cs.flatMap (ctOf q)).Nodup ∧
      rest.Nodup ∧ (∀ t, t ∈ rest ↔ t ∈ all ∧ ∀ c ∈ cs, t ∉ ctOf q c) ∧
      (∀ i c, cs[i]? = some c → (∀ x ∈ c, st.rcid x = i) ∧ ∀ t ∈ ctOf q c, st.tcid t = i) ∧
      (∀ i t, rest[i]? = some t → st.tcid t = cs.length + i) := by
  obtain ⟨g1, g2, g3⟩ := gateMap_spec q n
  have hsym : MapSymm (gateMap q n) := by
    intro a b h
    obtain ⟨h1, h2, t, h3, h4⟩ := (g3 a b).1 h
    exact (g3 b a).2 ⟨h2, h1, t, h4, h3⟩
  have hlen : (keys (gateMap q n)).length < n + 1 := by
    have : (keys (gateMap q n)).Subperm (List.range n) :=
      (nodup_of_sorted g1.1).subperm (fun x hx => List.mem_range.2 ((g2 x).1 hx))
    have := this.length_le
    simp only [List.length_range] at this
    omega
  obtain ⟨cs, c1, c2, c3, c4, c5⟩ := components_spec (n + 1) (gateMap q n) g1 hsym hlen
  have hrel : (fun a b => b ∈ mapGet a (gateMap q n)) =
      fun a b => a < n ∧ b < n ∧ ∃ t, t ∈ q a ∧ t ∈ q b := by
    funext a b; exact propext (g3 a b)
  rw [hrel] at c5
  -- targets of different components are different
  have hctnd : (cs.flatMap (ctOf q)).Nodup := by
    rw [List.nodup_flatMap]
    refine ⟨fun c _ => nodup_of_sorted (ctOf_sorted q c), ?_⟩
    have hpw : cs.Pairwise List.Disjoint := (List.nodup_flatten.1 c2).2
    have hpw' := List.Pairwise.and_mem.1 hpw
    refine hpw'.imp ?_
    rintro c c' ⟨hc, hc', hdis⟩ t ht ht'
    obtain ⟨r, hr, hrt⟩ := (mem_ctOf q c t).1 ht
    obtain ⟨r', hr', hrt'⟩ := (mem_ctOf q c' t).1 ht'
    have hrn := (g2 r).1 ((c3 r).1 (List.mem_flatten.2 ⟨c, hc, hr⟩))
    have hrn' := (g2 r').1 ((c3 r').1 (List.mem_flatten.2 ⟨c', hc', hr'⟩))
    have : r' ∈ c := (c5 c hc r hr r').2
      (Relation.ReflTransGen.single ⟨hrn, hrn', t, hrt, hrt'⟩)
    exact hdis this hr'
  have hloop := clusterLoop_eq q (n + 1) (gateMap q n) ⟨all, [], rcid0, tcid0, 0⟩ cs c1
  obtain ⟨b1, b2, b3, b4, b5, b6⟩ := foldl_body q cs ⟨all, [], rcid0, tcid0, 0⟩ hall
  have brc := foldl_rcid q cs ⟨all, [], rcid0, tcid0, 0⟩ hall c2
  have btc := foldl_tcid q cs ⟨all, [], rcid0, tcid0, 0⟩ hall hctnd
  set st1 := cs.foldl (fun st c => clusterBody q c st) ⟨all, [], rcid0, tcid0, 0⟩ with hst1
  obtain ⟨s1, s2, s3, s4, s5⟩ := singles_spec st1.all st1 b3
  refine ⟨clusterSingles st1.all st1, cs, st1.all, ?_, ?_, ?_, c2, ?_, c4, c5, hctnd, b3, b4,
    ?_, ?_⟩
  · unfold cluster
    have : ccBuild (ccCalls q (matchReports q (List.range n) fun _ => []) (List.range n)) =
      gateMap q n := rfl
    simp only [this, hloop, Option.map_some]
  · rw [s1, b1, b2, mkClusters_append]; simp
  · rw [s2, b2]; simp
  · intro x; rw [c3, g2]
  · intro i c hi
    constructor
    · intro x hx
      rw [s3]
      simpa using brc i c hi x hx
    · intro t ht
      have hmem : c ∈ cs := List.mem_of_getElem? hi
      rw [s4 t (fun h => ((b4 t).1 h).2 c hmem ht)]
      simpa using btc i c hi t ht
  · intro i t hi
    rw [s5 i t hi, b2]; simp

end Verif.Cluster
