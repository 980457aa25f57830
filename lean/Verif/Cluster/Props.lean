import Verif.Cluster.Lemmas

/-!
# Properties of connected components and of clustering (C08–C11)

`CallConn calls a b`: some `connect(a, cs)` among the calls has `b` in `cs`.
`CallNode calls a`: `init(a)` or `connect(a, …)` is among the calls.
-/

namespace Verif.Cluster

/-! ## C08 -/

/-- **C08** After any sequence of `init`/`connect` calls describing a symmetric relation,
repeating `get_component` until it returns `false` terminates; the components are non-empty,
contain every node exactly once and nothing else, and two nodes are in the same component iff a
chain of connections links them.  The number of calls is bounded by the number of nodes. -/
theorem C08_components_partition (calls : List CCCall)
    (hsym : ∀ a b, CallConn calls a b → CallConn calls b a) :
    ∃ F cs, (∀ f, F ≤ f → components f (ccBuild calls) = some cs) ∧
      cs.flatten.Nodup ∧ (∀ x, x ∈ cs.flatten ↔ CallNode calls x) ∧ (∀ c ∈ cs, c ≠ []) ∧
      ∀ a b, CallNode calls a →
        ((∃ c ∈ cs, a ∈ c ∧ b ∈ c) ↔ Relation.ReflTransGen (CallConn calls) a b) := by
  obtain ⟨h1, h2, h3⟩ := ccBuild_spec calls [] ⟨by simp [keys], by simp⟩
  have h2' : ∀ x, x ∈ keys (ccBuild calls) ↔ CallNode calls x := by
    intro x; rw [ccBuild, h2]; simp [keys]
  have h3' : ∀ a b, b ∈ mapGet a (ccBuild calls) ↔ CallConn calls a b := by
    intro a b; rw [ccBuild, h3]; simp [mapGet]
  have hs : MapSymm (ccBuild calls) := by
    intro a b h
    exact (h3' b a).2 (hsym a b ((h3' a b).1 h))
  have hrel : (fun a b => b ∈ mapGet a (ccBuild calls)) = CallConn calls := by
    funext a b; exact propext (h3' a b)
  have key : ∀ f, (keys (ccBuild calls)).length < f → ∃ cs, components f (ccBuild calls) = some cs ∧
      cs.flatten.Nodup ∧ (∀ x, x ∈ cs.flatten ↔ x ∈ keys (ccBuild calls)) ∧ (∀ c ∈ cs, c ≠ []) ∧
      ∀ c ∈ cs, ∀ a ∈ c, ∀ b, b ∈ c ↔ Relation.ReflTransGen (CallConn calls) a b := by
    intro f hf
    have := components_spec f (ccBuild calls) h1 hs hf
    rwa [hrel] at this
  -- more fuel gives the same answer
  have mono : ∀ f m cs, components f m = some cs → components (f + 1) m = some cs := by
    intro f
    induction f with
    | zero => intro m cs h; simp [components] at h
    | succ f ih =>
      intro m cs h
      rw [components] at h ⊢
      cases hg : getComponent m with
      | none => simp [hg] at h
      | some o =>
        cases o with
        | none => simpa [hg] using h
        | some p =>
          obtain ⟨m', c⟩ := p
          simp only [hg, Option.map_eq_some_iff] at h ⊢
          obtain ⟨cs', h5, h6⟩ := h
          exact ⟨cs', ih m' cs' h5, h6⟩
  obtain ⟨cs, c1, c2, c3, c4, c5⟩ := key ((keys (ccBuild calls)).length + 1) (by omega)
  refine ⟨(keys (ccBuild calls)).length + 1, cs, ?_, c2, fun x => (c3 x).trans (h2' x), c4, ?_⟩
  · intro f hf
    induction f, hf using Nat.le_induction with
    | base => exact c1
    | succ f _ ih => exact mono f _ cs ih
  · intro a b ha
    constructor
    · rintro ⟨c, hc, hac, hbc⟩; exact (c5 c hc a hac b).1 hbc
    · intro h
      obtain ⟨c, hc, hac⟩ := List.mem_flatten.1 ((c3 a).2 ((h2' a).2 ha))
      exact ⟨c, hc, hac, (c5 c hc a hac b).2 h⟩

/-- Two components, one a chain of three. -/
def sampleCalls : List CCCall :=
  [.init 5, .connect 3 [7], .connect 7 [3, 9], .init 9, .connect 9 [7]]

example : ∀ a b, CallConn sampleCalls a b → CallConn sampleCalls b a := by
  rintro a b ⟨cs, h, hb⟩
  simp only [sampleCalls, List.mem_cons, reduceCtorEq, CCCall.connect.injEq, List.not_mem_nil,
    or_false, false_or] at h
  rcases h with ⟨rfl, rfl⟩ | ⟨rfl, rfl⟩ | ⟨rfl, rfl⟩
  · obtain rfl : b = 7 := by simpa using hb
    exact ⟨[3, 9], by simp [sampleCalls], by simp⟩
  · obtain rfl | rfl : b = 3 ∨ b = 9 := by simpa using hb
    · exact ⟨[7], by simp [sampleCalls], by simp⟩
    · exact ⟨[7], by simp [sampleCalls], by simp⟩
  · obtain rfl : b = 7 := by simpa using hb
    exact ⟨[3, 9], by simp [sampleCalls], by simp⟩

example : components 10 (ccBuild sampleCalls) = some [[3, 7, 9], [5]] := by decide

/-! ## C09 -/

/-- **C09** The symmetry hypothesis of `C08` cannot be dropped: with the single connection
`1 → 0` node 0 is returned in two components. -/
theorem C09_asymmetric_witness :
    components 5 (ccBuild [.init 0, .init 1, .connect 1 [0]]) = some [[0], [1, 0]] ∧
    ¬ ([[0], [1, 0]] : List (List Nat)).flatten.Nodup := by decide

/-- **C09** In general: whenever a *later* node has a one-way connection to the first one, the
first node is returned again. (Two nodes, arbitrary addresses.) -/
theorem C09_asymmetric (a b : Nat) (hab : a < b) :
    components 5 (ccBuild [.init a, .init b, .connect b [a]]) = some [[a], [b, a]] := by
  have h1 : ¬ b < a := by omega
  have h2 : (b == a) = false := by simp; omega
  have h3 : (a == b) = false := by simp; omega
  have h4 : b ≠ a := by omega
  have h5 : a ≠ b := by omega
  simp [ccBuild, ccCall, ccInit, ccConnect, mapUpdate, hab, h1, setInsert, components,
    getComponent, ccFuel, ccLoop, mapGet, mapErase, h2, h3, h4, h5]

example : (3 : Nat) < 8 := by decide

/-! ## C10, C11 -/

/-- **C10** `cluster` always terminates; every report of the scan is in exactly one cluster (with
multiplicity one), and the targets in clusters are exactly the affected ones and those gated by
some report, each in exactly one cluster. -/
theorem C10_clusters_cover (q : Nat → List Nat) (n : Nat) (all : List Nat) (hall : all.Nodup)
    (rcid0 tcid0 : Nat → Nat) :
    ∃ st, cluster q n all rcid0 tcid0 = some st ∧
      (st.clusters.flatMap Cl.reports).Perm (List.range n) ∧
      (st.clusters.flatMap Cl.targets).Nodup ∧
      (∀ t, t ∈ st.clusters.flatMap Cl.targets ↔ t ∈ all ∨ ∃ r < n, t ∈ q r) := by
  obtain ⟨st, cs, rest, h1, h2, h3, h4, h5, h6, h7, h8, h9, h10, h11, h12⟩ :=
    cluster_spec q n all hall rcid0 tcid0
  have hmk : ∀ (f : Cl → List Nat) (g : List Nat × List Nat → List Nat)
      (hf : ∀ i p, f ⟨i, p.1, p.2⟩ = g p) (i : Nat) (l : List (List Nat × List Nat)),
      (mkClusters i l).flatMap f = l.flatMap g := by
    intro f g hf i l
    induction l generalizing i with
    | nil => rfl
    | cons p l ih => simp [mkClusters, hf, ih]
  have hreps : st.clusters.flatMap Cl.reports = cs.flatten := by
    rw [h2, hmk Cl.reports (·.1) (fun _ _ => rfl), List.flatMap_append]
    have e1 : (rest.map fun t => (([] : List Nat), [t])).flatMap (·.1) = [] := by
      simp [List.flatMap_map]
    have e2 : (cs.map fun c => (c, ctOf q c)).flatMap (·.1) = cs.flatten := by
      rw [List.flatMap_map]; simp [List.flatMap_id']
    rw [e1, e2, List.append_nil]
  have htgts : st.clusters.flatMap Cl.targets = cs.flatMap (ctOf q) ++ rest := by
    rw [h2, hmk Cl.targets (·.2) (fun _ _ => rfl), List.flatMap_append, List.flatMap_map,
      List.flatMap_map]
    simp
  refine ⟨st, h1, ?_, ?_, ?_⟩
  · rw [hreps]
    refine (List.perm_ext_iff_of_nodup h4 List.nodup_range).2 ?_
    intro x; rw [h5, List.mem_range]
  · rw [htgts, List.nodup_append]
    refine ⟨h8, h9, ?_⟩
    intro a ha b hb hab
    subst hab
    obtain ⟨c, hc, hac⟩ := List.mem_flatMap.1 ha
    exact ((h10 a).1 hb).2 c hc hac
  · intro t
    rw [htgts, List.mem_append, h10, List.mem_flatMap]
    have hgate : (∃ c ∈ cs, t ∈ ctOf q c) ↔ ∃ r < n, t ∈ q r := by
      constructor
      · rintro ⟨c, hc, ht⟩
        obtain ⟨r, hr, hrt⟩ := (mem_ctOf q c t).1 ht
        exact ⟨r, (h5 r).1 (List.mem_flatten.2 ⟨c, hc, hr⟩), hrt⟩
      · rintro ⟨r, hr, hrt⟩
        obtain ⟨c, hc, hrc⟩ := List.mem_flatten.1 ((h5 r).2 hr)
        exact ⟨c, hc, (mem_ctOf q c t).2 ⟨r, hrc, hrt⟩⟩
    rw [hgate]
    constructor
    · rintro (h | ⟨h, _⟩)
      · exact Or.inr h
      · exact Or.inl h
    · rintro (h | h)
      · by_cases hg : ∃ r < n, t ∈ q r
        · exact Or.inl hg
        · refine Or.inr ⟨h, ?_⟩
          intro c hc ht
          exact hg (hgate.1 ⟨c, hc, ht⟩)
      · exact Or.inl h

/-- Gating: three reports, report 0 and 2 share target 11, report 1 gates nothing; 13 is in view
but not gated. -/
def sampleGate : Nat → List Nat
  | 0 => [11, 10]
  | 2 => [11, 12]
  | _ => []

example : ([10, 13] : List Nat).Nodup ∧
    ((cluster sampleGate 3 [10, 13] (fun _ => 0) (fun _ => 0)).map fun st => st.clusters) =
      some [⟨0, [0, 2], [10, 11, 12]⟩, ⟨1, [1], []⟩, ⟨2, [], [13]⟩] := by decide +kernel

/-- **C11** Clusters are the connected components of the gating graph, and all `cid`s are
consistent: a report and a target it gates share a cluster; two reports share a cluster iff they
are linked by a chain of shared gated targets; cluster `i` of the list has id `i`, there are
`nof_clusters` of them; the `cid` of a clustered report or target is the id of its cluster. -/
theorem C11_clusters_are_components (q : Nat → List Nat) (n : Nat) (all : List Nat)
    (hall : all.Nodup) (rcid0 tcid0 : Nat → Nat) :
    ∃ st : CState, cluster q n all rcid0 tcid0 = some st ∧
      (∀ r < n, ∀ t ∈ q r, ∃ c ∈ st.clusters, r ∈ c.reports ∧ t ∈ c.targets) ∧
      (∀ a < n, ∀ b < n, (∃ c ∈ st.clusters, a ∈ c.reports ∧ b ∈ c.reports) ↔
        Relation.ReflTransGen (fun a b => a < n ∧ b < n ∧ ∃ t, t ∈ q a ∧ t ∈ q b) a b) ∧
      (∀ c ∈ st.clusters, ∀ t ∈ c.targets, c.reports ≠ [] → ∃ r ∈ c.reports, t ∈ q r) ∧
      (∀ c ∈ st.clusters, c.reports = [] → ∃ t ∈ all, c.targets = [t]) ∧
      st.clusters.length = st.cid ∧ (∀ i (c : Cl), st.clusters[i]? = some c → c.id = i) ∧
      (∀ c ∈ st.clusters, (∀ r ∈ c.reports, st.rcid r = c.id) ∧
        ∀ t ∈ c.targets, st.tcid t = c.id) := by
  obtain ⟨st, cs, rest, h1, h2, h3, h4, h5, h6, h7, h8, h9, h10, h11, h12⟩ :=
    cluster_spec q n all hall rcid0 tcid0
  -- the clusters, one by one
  have hcl : ∀ i c, st.clusters[i]? = some c →
      (∃ k, cs[i]? = some k ∧ c = ⟨i, k, ctOf q k⟩) ∨
      (cs.length ≤ i ∧ ∃ t, rest[i - cs.length]? = some t ∧ c = ⟨i, [], [t]⟩) := by
    intro i c hc
    rw [h2, mkClusters_getElem?, Option.map_eq_some_iff] at hc
    obtain ⟨p, hp, rfl⟩ := hc
    by_cases hi : i < cs.length
    · left
      rw [List.getElem?_append_left (by simpa using hi), List.getElem?_map,
        Option.map_eq_some_iff] at hp
      obtain ⟨k, hk, rfl⟩ := hp
      exact ⟨k, hk, by simp⟩
    · right
      rw [List.getElem?_append_right (by simpa using hi), List.getElem?_map,
        Option.map_eq_some_iff] at hp
      obtain ⟨t, ht, rfl⟩ := hp
      exact ⟨by omega, t, by simpa using ht, by simp⟩
  have hcl' : ∀ c ∈ st.clusters, ∃ i : Nat, st.clusters[i]? = some c := by
    intro c hc; exact List.mem_iff_getElem?.1 hc
  have hback : ∀ k ∈ cs, ∃ c ∈ st.clusters, c.reports = k ∧ c.targets = ctOf q k := by
    intro k hk
    obtain ⟨i, hi⟩ := List.mem_iff_getElem?.1 hk
    have hlt : i < cs.length := by
      by_contra hn
      rw [List.getElem?_eq_none (by omega)] at hi
      simp at hi
    refine ⟨⟨i, k, ctOf q k⟩, ?_, rfl, rfl⟩
    apply List.mem_of_getElem? (i := i)
    rw [h2, mkClusters_getElem?, List.getElem?_append_left (by simpa using hlt), List.getElem?_map,
      hi]
    simp
  refine ⟨st, h1, ?_, ?_, ?_, ?_, ?_, ?_, ?_⟩
  · intro r hr t ht
    obtain ⟨k, hk, hrk⟩ := List.mem_flatten.1 ((h5 r).2 hr)
    obtain ⟨c, hc, e1, e2⟩ := hback k hk
    exact ⟨c, hc, e1 ▸ hrk, e2 ▸ (mem_ctOf q k t).2 ⟨r, hrk, ht⟩⟩
  · intro a ha b hb
    constructor
    · rintro ⟨c, hc, hac, hbc⟩
      obtain ⟨i, hi⟩ := hcl' c hc
      rcases hcl i c hi with ⟨k, hk, rfl⟩ | ⟨_, t, _, rfl⟩
      · exact (h7 k (List.mem_of_getElem? hk) a hac b).1 hbc
      · simp at hac
    · intro h
      obtain ⟨k, hk, hak⟩ := List.mem_flatten.1 ((h5 a).2 ha)
      obtain ⟨c, hc, e1, _⟩ := hback k hk
      exact ⟨c, hc, e1 ▸ hak, e1 ▸ (h7 k hk a hak b).2 h⟩
  · intro c hc t ht hne
    obtain ⟨i, hi⟩ := hcl' c hc
    rcases hcl i c hi with ⟨k, hk, rfl⟩ | ⟨_, t, _, rfl⟩
    · exact (mem_ctOf q k t).1 ht
    · exact absurd rfl hne
  · intro c hc he
    obtain ⟨i, hi⟩ := hcl' c hc
    rcases hcl i c hi with ⟨k, hk, rfl⟩ | ⟨_, t, ht, rfl⟩
    · exact absurd he (h6 k (List.mem_of_getElem? hk))
    · exact ⟨t, ((h10 t).1 (List.mem_of_getElem? ht)).1, rfl⟩
  · rw [h2, mkClusters_length, h3]; simp
  · intro i c hi
    rcases hcl i c hi with ⟨k, hk, rfl⟩ | ⟨_, t, ht, rfl⟩ <;> rfl
  · intro c hc
    obtain ⟨i, hi⟩ := hcl' c hc
    rcases hcl i c hi with ⟨k, hk, rfl⟩ | ⟨hle, t, ht, rfl⟩
    · exact h11 i k hk
    · refine ⟨by simp, ?_⟩
      intro t' ht'
      obtain rfl : t' = t := by simpa using ht'
      rw [h12 _ _ ht]
      simp only
      omega

example : ((cluster sampleGate 3 [10, 13] (fun _ => 9) (fun _ => 9)).map fun st =>
    (st.cid, (List.range 3).map st.rcid, [10, 11, 12, 13].map st.tcid)) =
      some (3, [0, 1, 0], [0, 0, 0, 2]) := by decide +kernel

/-- The hypothesis `all.Nodup` of C10/C11 is needed: a target listed twice among the affected ones
and gated once ends up in two clusters (`std::set_difference` keeps the surplus copy).
`C26` shows that this does not happen. -/
theorem C10_duplicates_witness :
    ((cluster (fun _ => [7]) 1 [7, 7] (fun _ => 0) (fun _ => 0)).map fun st => st.clusters) =
      some [⟨0, [0], [7]⟩, ⟨1, [], [7]⟩] := by decide +kernel

end Verif.Cluster
