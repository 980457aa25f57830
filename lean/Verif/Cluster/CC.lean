import Verif.Cluster.CCModel
import Mathlib.Data.List.Nodup
import Mathlib.Data.List.Perm.Subperm
import Mathlib.Logic.Relation
import Mathlib.Tactic.Common

/-! # Lemmas about connected components -/

namespace Verif.Cluster

/-! ## Sets and maps -/

theorem mem_setInsert (x y : Nat) (s : CSet) : y ∈ setInsert x s ↔ y = x ∨ y ∈ s := by
  induction s with
  | nil => simp [setInsert]
  | cons z s ih =>
    simp only [setInsert]
    split
    · simp
    · split
      · simp only [List.mem_cons, ih]; tauto
      · have : x = z := by omega
        subst this; simp

theorem nodup_setInsert (x : Nat) (s : CSet) (h : s.Pairwise (· < ·)) :
    (setInsert x s).Pairwise (· < ·) := by
  induction s with
  | nil => simp [setInsert]
  | cons z s ih =>
    obtain ⟨h1, h2⟩ := List.pairwise_cons.1 h
    simp only [setInsert]
    split
    · rename_i hx
      refine List.pairwise_cons.2 ⟨?_, h⟩
      intro y hy
      rcases List.mem_cons.1 hy with rfl | hy
      · exact hx
      · exact Nat.lt_trans hx (h1 y hy)
    · split
      · rename_i hx
        refine List.pairwise_cons.2 ⟨?_, ih h2⟩
        intro y hy
        rcases (mem_setInsert x y s).1 hy with rfl | hy
        · exact hx
        · exact h1 y hy
      · exact h

theorem mem_foldl_setInsert (cs : List Nat) (s : CSet) (y : Nat) :
    y ∈ cs.foldl (fun s x => setInsert x s) s ↔ y ∈ cs ∨ y ∈ s := by
  induction cs generalizing s with
  | nil => simp
  | cons x cs ih => simp only [List.foldl_cons, ih, mem_setInsert, List.mem_cons]; tauto

theorem foldl_setInsert_sorted (cs : List Nat) (s : CSet) (h : s.Pairwise (· < ·)) :
    (cs.foldl (fun s x => setInsert x s) s).Pairwise (· < ·) := by
  induction cs generalizing s with
  | nil => exact h
  | cons x cs ih => exact ih _ (nodup_setInsert x s h)

/-- Keys of a map. -/
def keys (m : CMap) : List Nat := m.map (·.1)

/-- Well-formed map: strictly increasing keys and sets. -/
def MapOk (m : CMap) : Prop :=
  (keys m).Pairwise (· < ·) ∧ ∀ e ∈ m, e.2.Pairwise (· < ·)

theorem mem_keys_mapUpdate (k : Nat) (f : CSet → CSet) (m : CMap) (y : Nat) :
    y ∈ keys (mapUpdate k f m) ↔ y = k ∨ y ∈ keys m := by
  induction m with
  | nil => simp [mapUpdate, keys]
  | cons e m ih =>
    simp only [mapUpdate]
    split
    · simp [keys]
    · split
      · simp only [keys, List.map_cons, List.mem_cons] at ih ⊢
        rw [ih]; tauto
      · have : k = e.1 := by omega
        subst this
        simp [keys]

theorem mapUpdate_ok (k : Nat) (f : CSet → CSet) (m : CMap) (h : MapOk m)
    (hf : ∀ s : CSet, s.Pairwise (· < ·) → (f s).Pairwise (· < ·)) : MapOk (mapUpdate k f m) := by
  induction m with
  | nil =>
    refine ⟨by simp [mapUpdate, keys], ?_⟩
    intro e he
    simp only [mapUpdate, List.mem_singleton] at he
    subst he
    exact hf [] List.Pairwise.nil
  | cons e m ih =>
    obtain ⟨h1, h2⟩ := h
    have hk := List.pairwise_cons.1 h1
    simp only [mapUpdate]
    split
    · rename_i hlt
      constructor
      · refine List.pairwise_cons.2 ⟨?_, h1⟩
        intro y hy
        rcases List.mem_cons.1 hy with rfl | hy
        · exact hlt
        · exact Nat.lt_trans hlt (hk.1 y hy)
      · intro e' he'
        rcases List.mem_cons.1 he' with rfl | he'
        · exact hf [] List.Pairwise.nil
        · exact h2 e' he'
    · split
      · rename_i hlt
        obtain ⟨i1, i2⟩ := ih ⟨hk.2, fun e' he' => h2 e' (List.mem_cons_of_mem _ he')⟩
        constructor
        · refine List.pairwise_cons.2 ⟨?_, i1⟩
          intro y hy
          rcases (mem_keys_mapUpdate k f m y).1 hy with rfl | hy
          · exact hlt
          · exact hk.1 y hy
        · intro e' he'
          rcases List.mem_cons.1 he' with rfl | he'
          · exact h2 _ (List.mem_cons_self ..)
          · exact i2 e' he'
      · constructor
        · exact h1
        · intro e' he'
          rcases List.mem_cons.1 he' with rfl | he'
          · exact hf _ (h2 e (List.mem_cons_self ..))
          · exact h2 e' (List.mem_cons_of_mem _ he')

theorem mapGet_cons (k : Nat) (e : Nat × CSet) (m : CMap) :
    mapGet k (e :: m) = if e.1 = k then e.2 else mapGet k m := by
  unfold mapGet
  by_cases h : e.1 = k <;> simp [h]

theorem mapGet_of_not_mem (k : Nat) (m : CMap) (h : k ∉ keys m) : mapGet k m = [] := by
  induction m with
  | nil => rfl
  | cons e m ih =>
    rw [mapGet_cons]
    simp only [keys, List.map_cons, List.mem_cons, not_or] at h
    rw [if_neg (fun h' => h.1 h'.symm)]
    exact ih h.2

theorem mapGet_mapUpdate (k : Nat) (f : CSet → CSet) (m : CMap) (h : MapOk m) (y : Nat) :
    mapGet y (mapUpdate k f m) = if y = k then f (mapGet k m) else mapGet y m := by
  induction m with
  | nil =>
    simp only [mapUpdate, mapGet_cons]
    by_cases hy : y = k
    · subst hy; simp [mapGet]
    · rw [if_neg (fun h => hy h.symm), if_neg hy]
  | cons e m ih =>
    have hk := List.pairwise_cons.1 h.1
    simp only [mapUpdate]
    split
    · rename_i hlt
      rw [mapGet_cons]
      by_cases hy : y = k
      · subst hy
        have : mapGet y (e :: m) = [] := by
          apply mapGet_of_not_mem
          intro hm
          rcases List.mem_cons.1 hm with hm | hm
          · simp only at hm; omega
          · have := hk.1 y hm; simp only at this; omega
        simp [this]
      · rw [if_neg (fun h => hy h.symm), if_neg hy]
    · split
      · rename_i hlt
        rw [mapGet_cons, ih ⟨hk.2, fun e' he' => h.2 e' (List.mem_cons_of_mem _ he')⟩,
          mapGet_cons, mapGet_cons]
        by_cases hy : y = k
        · subst hy
          have hne : ¬ e.1 = y := by omega
          simp [hne]
        · simp [hy]
      · have hke : k = e.1 := by omega
        rw [mapGet_cons, mapGet_cons, mapGet_cons]
        by_cases hy : y = k
        · subst hy; simp [hke]
        · rw [if_neg (by simp only; omega), if_neg hy, if_neg (by omega)]

theorem mem_keys_mapErase (k : Nat) (m : CMap) (y : Nat) :
    y ∈ keys (mapErase k m) ↔ y ≠ k ∧ y ∈ keys m := by
  simp only [keys, mapErase, List.mem_map, List.mem_filter, bne_iff_ne, ne_eq]
  constructor
  · rintro ⟨e, ⟨h1, h2⟩, rfl⟩; exact ⟨h2, e, h1, rfl⟩
  · rintro ⟨h2, e, h1, rfl⟩; exact ⟨e, ⟨h1, h2⟩, rfl⟩

/-- The map without a list of keys. -/
def without (l : List Nat) (m : CMap) : CMap := m.filter (fun e => !l.contains e.1)

theorem mapErase_without (k : Nat) (l : List Nat) (m : CMap) :
    mapErase k (without l m) = without (l ++ [k]) m := by
  unfold mapErase without
  rw [List.filter_filter]
  apply List.filter_congr
  intro e _
  by_cases h1 : e.1 = k <;> by_cases h2 : e.1 ∈ l <;> simp [h1, h2, List.contains_iff_mem]

theorem mapGet_without (k : Nat) (l : List Nat) (m : CMap) (h : k ∉ l) :
    mapGet k (without l m) = mapGet k m := by
  induction m with
  | nil => rfl
  | cons e m ih =>
    unfold without at ih ⊢
    by_cases he : e.1 ∈ l
    · rw [List.filter_cons_of_neg (by simp [he]), ih, mapGet_cons,
        if_neg (fun h' : e.1 = k => h (h' ▸ he))]
    · rw [List.filter_cons_of_pos (by simp [he]), mapGet_cons, mapGet_cons, ih]

theorem mem_keys_without (l : List Nat) (m : CMap) (y : Nat) :
    y ∈ keys (without l m) ↔ y ∉ l ∧ y ∈ keys m := by
  simp only [keys, without, List.mem_map, List.mem_filter]
  constructor
  · rintro ⟨e, ⟨h1, h2⟩, rfl⟩; exact ⟨by simpa using h2, e, h1, rfl⟩
  · rintro ⟨h2, e, h1, rfl⟩; exact ⟨e, ⟨h1, by simpa using h2⟩, rfl⟩

theorem MapOk.without {m : CMap} (h : MapOk m) (l : List Nat) : MapOk (without l m) := by
  constructor
  · have : (keys (Verif.Cluster.without l m)).Sublist (keys m) := by
      unfold keys Verif.Cluster.without
      exact List.Sublist.map _ List.filter_sublist
    exact List.Pairwise.sublist this h.1
  · intro e he
    exact h.2 e (List.mem_filter.1 he).1

theorem mapGet_sorted {m : CMap} (h : MapOk m) (k : Nat) : (mapGet k m).Pairwise (· < ·) := by
  unfold mapGet
  cases hf : m.find? (fun e => e.1 == k) with
  | none => exact List.Pairwise.nil
  | some e => exact h.2 e (List.mem_of_find?_eq_some hf)

/-! ## The search -/

/-- All pointers mentioned in the map. -/
def univ (m : CMap) : List Nat := m.flatMap fun e => e.1 :: e.2

theorem mapGet_subset_univ (k : Nat) (m : CMap) : ∀ x ∈ mapGet k m, x ∈ univ m := by
  intro x hx
  unfold mapGet at hx
  cases hf : m.find? (fun e => e.1 == k) with
  | none => simp [hf] at hx
  | some e =>
    rw [hf] at hx
    exact List.mem_flatMap.2 ⟨e, List.mem_of_find?_eq_some hf, List.mem_cons_of_mem _ hx⟩

/-- The search visits exactly the nodes reachable from the start, each once, and leaves the rest
of the map untouched.  No symmetry is needed for a single call. -/
theorem ccLoop_spec (m : CMap) (hm : MapOk m) (k0 : Nat) :
    ∀ (f : Nat) (nodes res : List Nat), (res ++ nodes).Nodup →
      (∀ x ∈ res ++ nodes, x ∈ k0 :: univ m) →
      (∀ x ∈ res ++ nodes, Relation.ReflTransGen (fun a b => b ∈ mapGet a m) k0 x) →
      (∀ a ∈ res, ∀ b ∈ mapGet a m, b ∈ res ++ nodes) →
      k0 ∈ res ++ nodes →
      (univ m).length + 2 ≤ f + res.length →
      ∃ res', ccLoop f (without res m) nodes res = some (without res' m, res') ∧ res'.Nodup ∧
        ∀ x, x ∈ res' ↔ Relation.ReflTransGen (fun a b => b ∈ mapGet a m) k0 x := by
  intro f
  induction f with
  | zero =>
    intro nodes res hnd hsub _ _ _ hf
    exfalso
    have h1 : res.Nodup := (List.nodup_append.1 hnd).1
    have h2 : res.length ≤ (k0 :: univ m).length :=
      (h1.subperm (fun x hx => hsub x (List.mem_append_left _ hx))).length_le
    simp only [List.length_cons] at h2
    omega
  | succ f ih =>
    intro nodes res hnd hsub hreach hclosed hk0 hf
    cases nodes with
    | nil =>
      refine ⟨res, rfl, by simpa using hnd, ?_⟩
      intro x
      constructor
      · intro hx; exact hreach x (by simpa using hx)
      · intro hx
        induction hx with
        | refl => simpa using hk0
        | tail _ h2 ih => simpa using hclosed _ ih _ h2
    | cons k nodes =>
      have hkres : k ∉ res := by
        intro h
        exact (List.nodup_append.1 hnd).2.2 k h k (List.mem_cons_self ..) rfl
      simp only [ccLoop]
      rw [mapErase_without, mapGet_without k res m hkres]
      set s := (mapGet k m).filter
        (fun x => !(res ++ [k]).contains x && !nodes.contains x) with hs
      have hsmem : ∀ x, x ∈ s ↔ x ∈ mapGet k m ∧ x ∉ res ++ [k] ∧ x ∉ nodes := by
        intro x
        rw [hs, List.mem_filter]
        simp [List.contains_iff_mem]
      have hsnd : s.Nodup := by
        have : (mapGet k m).Nodup := (mapGet_sorted hm k).imp (fun h => Nat.ne_of_lt h)
        exact this.filter _
      have hperm : ∀ x, x ∈ res ++ [k] ++ (s.reverse ++ nodes) ↔ x ∈ res ++ k :: nodes ∨ x ∈ s := by
        intro x
        simp only [List.mem_append, List.mem_cons, List.mem_reverse, List.not_mem_nil]
        tauto
      apply ih
      · have e1 : res ++ [k] ++ (s.reverse ++ nodes) = (res ++ [k]) ++ s.reverse ++ nodes := by simp
        rw [e1, List.nodup_append, List.nodup_append]
        have e2 : res ++ k :: nodes = (res ++ [k]) ++ nodes := by simp
        rw [e2, List.nodup_append] at hnd
        refine ⟨⟨hnd.1, List.nodup_reverse.2 hsnd, ?_⟩, hnd.2.1, ?_⟩
        · intro a ha b hb hab
          subst hab
          exact ((hsmem a).1 (List.mem_reverse.1 hb)).2.1 ha
        · intro a ha b hb hab
          subst hab
          rcases List.mem_append.1 ha with ha | ha
          · exact hnd.2.2 a ha a hb rfl
          · exact ((hsmem a).1 (List.mem_reverse.1 ha)).2.2 hb
      · intro x hx
        rcases (hperm x).1 hx with h | h
        · exact hsub x h
        · exact List.mem_cons_of_mem _ (mapGet_subset_univ k m x ((hsmem x).1 h).1)
      · intro x hx
        rcases (hperm x).1 hx with h | h
        · exact hreach x h
        · exact (hreach k (by simp)).tail ((hsmem x).1 h).1
      · intro a ha b hb
        rw [hperm]
        rcases List.mem_append.1 ha with ha | ha
        · exact Or.inl (hclosed a ha b hb)
        · rw [List.mem_singleton.1 ha] at hb
          by_cases h1 : b ∈ res ++ k :: nodes
          · exact Or.inl h1
          · refine Or.inr ((hsmem b).2 ⟨hb, ?_, ?_⟩)
            · intro h; apply h1
              simp only [List.mem_append, List.mem_cons, List.not_mem_nil, or_false] at h ⊢; tauto
            · intro h; apply h1
              simp only [List.mem_append, List.mem_cons]; tauto
      · rw [hperm]; exact Or.inl hk0
      · simp only [List.length_append, List.length_singleton]; omega

/-- One call of `get_component` on a non-empty map. -/
theorem getComponent_spec (e : Nat × CSet) (m : CMap) (hm : MapOk (e :: m)) :
    ∃ res, getComponent (e :: m) = some (some (without res (e :: m), res)) ∧ res.Nodup ∧
      ∀ x, x ∈ res ↔ Relation.ReflTransGen (fun a b => b ∈ mapGet a (e :: m)) e.1 x := by
  obtain ⟨res, h1, h2, h3⟩ := ccLoop_spec (e :: m) hm e.1 (ccFuel (e :: m)) [e.1] []
    (by simp) (by simp) (by simpa using Relation.ReflTransGen.refl) (by simp) (by simp)
    (by simp [ccFuel, univ])
  refine ⟨res, ?_, h2, h3⟩
  have : without [] (e :: m) = e :: m := by simp [without]
  rw [this] at h1
  simp [getComponent, h1]

/-- The relation stored in a map is symmetric and only mentions keys. -/
def MapSymm (m : CMap) : Prop := ∀ a b, b ∈ mapGet a m → a ∈ mapGet b m

theorem MapSymm.reach_symm {m : CMap} (h : MapSymm m) {a b : Nat}
    (hr : Relation.ReflTransGen (fun a b => b ∈ mapGet a m) a b) :
    Relation.ReflTransGen (fun a b => b ∈ mapGet a m) b a :=
  by
    induction hr with
    | refl => exact Relation.ReflTransGen.refl
    | tail _ h2 ih => exact Relation.ReflTransGen.head (h _ _ h2) ih

theorem mem_keys_of_mapGet {m : CMap} {a b : Nat} (h : b ∈ mapGet a m) : a ∈ keys m := by
  by_contra hn
  rw [mapGet_of_not_mem a m hn] at h
  simp at h

theorem reach_keys {m : CMap} (hs : MapSymm m) {a b : Nat} (ha : a ∈ keys m)
    (h : Relation.ReflTransGen (fun a b => b ∈ mapGet a m) a b) : b ∈ keys m := by
  induction h with
  | refl => exact ha
  | tail _ h2 _ => exact mem_keys_of_mapGet (hs _ _ h2)

theorem components_spec (f : Nat) (m : CMap) (hm : MapOk m) (hs : MapSymm m)
    (hf : (keys m).length < f) :
    ∃ cs, components f m = some cs ∧ cs.flatten.Nodup ∧ (∀ x, x ∈ cs.flatten ↔ x ∈ keys m) ∧
      (∀ c ∈ cs, c ≠ []) ∧
      ∀ c ∈ cs, ∀ a ∈ c, ∀ b, b ∈ c ↔ Relation.ReflTransGen (fun a b => b ∈ mapGet a m) a b := by
  induction f generalizing m with
  | zero => omega
  | succ f ih =>
    cases m with
    | nil => exact ⟨[], rfl, by simp, by simp [keys], by simp, by simp⟩
    | cons e m =>
      obtain ⟨res, h1, h2, h3⟩ := getComponent_spec e m hm
      have hstart : e.1 ∈ res := (h3 e.1).2 Relation.ReflTransGen.refl
      have hkeys : ∀ x ∈ res, x ∈ keys (e :: m) :=
        fun x hx => reach_keys hs (by simp [keys]) ((h3 x).1 hx)
      -- adjacency in the rest
      have hadj : ∀ a b, b ∈ mapGet a (without res (e :: m)) ↔ a ∉ res ∧ b ∈ mapGet a (e :: m) := by
        intro a b
        by_cases ha : a ∈ res
        · have : a ∉ keys (without res (e :: m)) := by
            rw [mem_keys_without]; exact fun h => h.1 ha
          rw [mapGet_of_not_mem _ _ this]
          simp [ha]
        · rw [mapGet_without _ _ _ ha]; simp [ha]
      have hclosed : ∀ a b, b ∈ mapGet a (e :: m) → (a ∈ res ↔ b ∈ res) := by
        intro a b hab
        rw [h3, h3]
        exact ⟨fun h => h.tail hab, fun h => h.tail (hs _ _ hab)⟩
      have hs' : MapSymm (without res (e :: m)) := by
        intro a b hab
        obtain ⟨h4, h5⟩ := (hadj a b).1 hab
        exact (hadj b a).2 ⟨fun h => h4 ((hclosed a b h5).2 h), hs a b h5⟩
      have hlen : (keys (without res (e :: m))).length < f := by
        have hsub : (keys (without res (e :: m))).Subperm (keys m) := by
          have hnd : (keys (without res (e :: m))).Nodup :=
            ((hm.without res).1).imp (fun h => Nat.ne_of_lt h)
          refine hnd.subperm ?_
          intro x hx
          obtain ⟨h4, h5⟩ := (mem_keys_without _ _ _).1 hx
          rcases List.mem_cons.1 h5 with rfl | h5
          · exact absurd hstart h4
          · exact h5
        have := hsub.length_le
        simp only [keys, List.map_cons, List.length_cons, List.length_map] at hf this ⊢
        omega
      obtain ⟨cs, c1, c2, c3, c4, c5⟩ := ih (without res (e :: m)) (hm.without res) hs' hlen
      refine ⟨res :: cs, ?_, ?_, ?_, ?_, ?_⟩
      · simp [components, h1, c1]
      · rw [List.flatten_cons, List.nodup_append]
        refine ⟨h2, c2, ?_⟩
        intro a ha b hb hab
        subst hab
        exact ((mem_keys_without _ _ _).1 ((c3 a).1 hb)).1 ha
      · intro x
        rw [List.flatten_cons, List.mem_append, c3, mem_keys_without]
        constructor
        · rintro (h | h)
          · exact hkeys x h
          · exact h.2
        · intro h
          by_cases hx : x ∈ res
          · exact Or.inl hx
          · exact Or.inr ⟨hx, h⟩
      · intro c hc
        rcases List.mem_cons.1 hc with rfl | hc
        · exact List.ne_nil_of_mem hstart
        · exact c4 c hc
      · intro c hc a ha b
        rcases List.mem_cons.1 hc with rfl | hc
        · have hea := (h3 a).1 ha
          rw [h3]
          exact ⟨fun h => (hs.reach_symm hea).trans h, fun h => hea.trans h⟩
        · have hares : a ∉ res :=
            ((mem_keys_without _ _ _).1 ((c3 a).1 (List.mem_flatten.2 ⟨c, hc, ha⟩))).1
          rw [c5 c hc a ha b]
          constructor
          · intro h
            induction h with
            | refl => exact Relation.ReflTransGen.refl
            | tail _ hxy ih => exact ih.tail ((hadj _ _).1 hxy).2
          · intro h
            have : ∀ y, Relation.ReflTransGen (fun a b => b ∈ mapGet a (e :: m)) a y →
                Relation.ReflTransGen (fun a b => b ∈ mapGet a (without res (e :: m))) a y ∧
                  y ∉ res := by
              intro y hy
              induction hy with
              | refl => exact ⟨Relation.ReflTransGen.refl, hares⟩
              | tail _ hyz ihy =>
                exact ⟨ihy.1.tail ((hadj _ _).2 ⟨ihy.2, hyz⟩),
                  fun hz => ihy.2 ((hclosed _ _ hyz).2 hz)⟩
            exact (this b h).1

/-! ## Building -/

/-- Connections requested by a list of calls. -/
def CallConn (calls : List CCCall) (a b : Nat) : Prop :=
  ∃ cs, CCCall.connect a cs ∈ calls ∧ b ∈ cs

/-- Nodes introduced by a list of calls. -/
def CallNode (calls : List CCCall) (a : Nat) : Prop :=
  CCCall.init a ∈ calls ∨ ∃ cs, CCCall.connect a cs ∈ calls

theorem ccBuild_spec (calls : List CCCall) (m : CMap) (hm : MapOk m) :
    MapOk (calls.foldl ccCall m) ∧
    (∀ x, x ∈ keys (calls.foldl ccCall m) ↔ CallNode calls x ∨ x ∈ keys m) ∧
    (∀ a b, b ∈ mapGet a (calls.foldl ccCall m) ↔ CallConn calls a b ∨ b ∈ mapGet a m) := by
  induction calls generalizing m with
  | nil => exact ⟨hm, by simp [CallNode], by simp [CallConn]⟩
  | cons c calls ih =>
    have hok : MapOk (ccCall m c) := by
      cases c with
      | init k => exact mapUpdate_ok _ _ _ hm (fun s h => h)
      | connect k cs => exact mapUpdate_ok _ _ _ hm (fun s h => foldl_setInsert_sorted cs s h)
    obtain ⟨i1, i2, i3⟩ := ih (ccCall m c) hok
    refine ⟨i1, ?_, ?_⟩
    · intro x
      rw [List.foldl_cons, i2]
      cases c with
      | init k =>
        simp only [ccCall, ccInit, mem_keys_mapUpdate, CallNode, List.mem_cons, CCCall.init.injEq,
          reduceCtorEq, false_or]
        tauto
      | connect k cs =>
        simp only [ccCall, ccConnect, mem_keys_mapUpdate, CallNode, List.mem_cons,
          CCCall.connect.injEq, reduceCtorEq, false_or]
        constructor
        · rintro ((h | ⟨cs', h⟩) | h | h)
          · exact Or.inl (Or.inl h)
          · exact Or.inl (Or.inr ⟨cs', Or.inr h⟩)
          · exact Or.inl (Or.inr ⟨cs, Or.inl ⟨h, rfl⟩⟩)
          · exact Or.inr h
        · rintro ((h | ⟨cs', h | h⟩) | h)
          · exact Or.inl (Or.inl h)
          · exact Or.inr (Or.inl h.1)
          · exact Or.inl (Or.inr ⟨cs', h⟩)
          · exact Or.inr (Or.inr h)
    · intro a b
      rw [List.foldl_cons, i3]
      cases c with
      | init k =>
        simp only [ccCall, ccInit, mapGet_mapUpdate k id m hm, CallConn, List.mem_cons,
          reduceCtorEq, false_or, id_eq]
        have : (if a = k then mapGet k m else mapGet a m) = mapGet a m := by
          split
          · rename_i h; rw [h]
          · rfl
        rw [this]
      | connect k cs =>
        simp only [ccCall, ccConnect, mapGet_mapUpdate k _ m hm, CallConn, List.mem_cons,
          CCCall.connect.injEq]
        by_cases hk : a = k
        · subst hk
          simp only [if_true, mem_foldl_setInsert, true_and]
          constructor
          · rintro (⟨cs', h1, h2⟩ | h | h)
            · exact Or.inl ⟨cs', Or.inr h1, h2⟩
            · exact Or.inl ⟨cs, Or.inl rfl, h⟩
            · exact Or.inr h
          · rintro (⟨cs', h1 | h1, h2⟩ | h)
            · exact Or.inr (Or.inl (h1 ▸ h2))
            · exact Or.inl ⟨cs', h1, h2⟩
            · exact Or.inr (Or.inr h)
        · simp [hk]

end Verif.Cluster
