import Verif.Tracker.Hist
import Verif.Cluster.Props

/-! # The clusters of a scan are the connected components of the gating -/

namespace Verif.Tracker

open Verif.Cluster (Cl)

variable {P R O : Type}

/-- The box of report `j` touches the box of the live target at `a`. -/
def Hits (E : Env P R O) (scan : List (Rep R)) (s : St P) (a j : Nat) : Prop :=
  ∃ t z, s.heap a = some t ∧ scan[j]? = some z ∧ (E.rbox z.val).Touch (E.box t.pdf)

/-- Target `a` and report `j` are connected by a chain of touching boxes. -/
def Linked (E : Env P R O) (scan : List (Rep R)) (s : St P) (a j : Nat) : Prop :=
  ∃ i, Hits E scan s a i ∧
    Relation.ReflTransGen (fun x y => ∃ b, Hits E scan s b x ∧ Hits E scan s b y) i j

theorem Hits.lt {E : Env P R O} {scan : List (Rep R)} {s : St P} {a j : Nat}
    (h : Hits E scan s a j) : j < scan.length := by
  obtain ⟨_, _, _, h, _⟩ := h
  exact (List.getElem?_eq_some_iff.1 h).1

theorem Linked.lt {E : Env P R O} {scan : List (Rep R)} {s : St P} {a j : Nat}
    (h : Linked E scan s a j) : j < scan.length := by
  obtain ⟨i, h1, h2⟩ := h
  induction h2 with
  | refl => exact h1.lt
  | tail _ h _ => obtain ⟨b, _, h⟩ := h; exact h.lt

theorem unique_of_nodup {α : Type} {f : α → List Nat} {l : List α} (h : (l.flatMap f).Nodup)
    {c d : α} (hc : c ∈ l) (hd : d ∈ l) {a : Nat} (h1 : a ∈ f c) (h2 : a ∈ f d) : c = d := by
  by_contra hn
  have := (List.nodup_flatMap.1 h).2
  have hs : Std.Symm (Function.onFun List.Disjoint f) :=
    ⟨fun x y hxy => List.disjoint_comm.1 hxy⟩
  exact (this.forall hc hd hn) h1 h2

/-- What `cluster` puts together. -/
theorem prepare_closed {E : Env P R O} (hbox : BoxOk E) {S : Sensor P R}
    (hf : S.fovBox.Valid) {scan : List (Rep R)} (hz : ∀ z ∈ scan, (E.rbox z.val).Valid) {s : St P}
    (hs : Ok E s fun _ => False) {cls : List Cl} {s1 : St P} {rcid : Nat → Nat}
    (e : prepare E S scan s = some (cls, s1, rcid)) :
    ∀ c ∈ cls, ∀ a ∈ c.targets, (∀ j, j ∈ c.reports ↔ Linked E scan s a j) ∧
      ∀ b, b ∈ c.targets ↔ b = a ∨ ∃ j, Linked E scan s a j ∧ Linked E scan s b j := by
  obtain ⟨all, a1, a2, a3⟩ := getTargets_ok hbox hf hs
  obtain ⟨qs, q1, q2, q3⟩ := queries_ok hbox hs (scan.map Rep.val) (by
    intro v hv
    obtain ⟨z, hz', rfl⟩ := List.mem_map.1 hv
    exact hz z hz')
  obtain ⟨st, c1, c2, c3, c4⟩ := Cluster.C10_clusters_cover (fun r => qs.getD r []) scan.length all a2
    (fun j => (scan[j]?.map Rep.cid).getD 0) (fun a => ((s.heap a).map Tgt.cid).getD 0)
  obtain ⟨st', d1, d2, d3, d4, d5, _⟩ :=
    Cluster.C11_clusters_are_components (fun r => qs.getD r []) scan.length all a2
    (fun j => (scan[j]?.map Rep.cid).getD 0) (fun a => ((s.heap a).map Tgt.cid).getD 0)
  rw [c1] at d1
  obtain rfl := Option.some.inj d1
  have hcls : cls = st.clusters := by
    simp only [prepare, a1, q1, c1] at e
    split at e
    · cases e
    · simp only [Option.some.injEq, Prod.mk.injEq] at e
      exact e.1.symm
  subst hcls
  have hrnd : (st.clusters.flatMap Cl.reports).Nodup := c2.nodup_iff.2 List.nodup_range
  have hrlt : ∀ c ∈ st.clusters, ∀ j ∈ c.reports, j < scan.length := fun c hc j hj =>
    List.mem_range.1 (c2.mem_iff.1 (List.mem_flatMap.2 ⟨c, hc, hj⟩))
  have hit : ∀ j, j < scan.length → ∀ a, a ∈ qs.getD j [] ↔ Hits E scan s a j := by
    intro j hj a
    obtain ⟨q, h1, _, h2⟩ := q3 j scan[j].val (by
      rw [List.getElem?_map, List.getElem?_eq_getElem hj]; rfl)
    rw [List.getD_eq_getElem?_getD, h1, Option.getD_some, h2]
    constructor
    · rintro ⟨t, ht, h⟩
      exact ⟨t, _, ht, List.getElem?_eq_getElem hj, h⟩
    · rintro ⟨t, z, ht, hz, h⟩
      rw [List.getElem?_eq_getElem hj] at hz
      obtain rfl := Option.some.inj hz
      exact ⟨t, ht, h⟩
  have chain : ∀ i j, i < scan.length → j < scan.length →
      ((∃ c ∈ st.clusters, i ∈ c.reports ∧ j ∈ c.reports) ↔
        Relation.ReflTransGen (fun x y => ∃ b, Hits E scan s b x ∧ Hits E scan s b y) i j) := by
    intro i j hi hj
    rw [d3 i hi j hj]
    constructor
    · intro h
      refine Relation.ReflTransGen.mono (fun x y => ?_) _ _ h
      rintro ⟨hx, hy, t, h1, h2⟩
      exact ⟨t, (hit x hx t).1 h1, (hit y hy t).1 h2⟩
    · intro h
      refine Relation.ReflTransGen.mono (fun x y => ?_) _ _ h
      rintro ⟨t, h1, h2⟩
      exact ⟨h1.lt, h2.lt, t, (hit x h1.lt t).2 h1, (hit y h2.lt t).2 h2⟩
  have hrep : ∀ c ∈ st.clusters, ∀ a ∈ c.targets, ∀ j, j ∈ c.reports ↔ Linked E scan s a j := by
    intro c hc a ha j
    constructor
    · intro hj
      obtain ⟨r, hr, har⟩ := d4 c hc a ha (List.ne_nil_of_mem hj)
      exact ⟨r, (hit r (hrlt c hc r hr) a).1 har,
        (chain r j (hrlt c hc r hr) (hrlt c hc j hj)).1 ⟨c, hc, hr, hj⟩⟩
    · intro h
      obtain ⟨r, h1, h2⟩ := id h
      obtain ⟨c', hc', k1, k2⟩ := d2 r h1.lt a ((hit r h1.lt a).2 h1)
      obtain rfl := unique_of_nodup c3 hc' hc k2 ha
      obtain ⟨c'', hc'', k3, k4⟩ := (chain r j h1.lt h.lt).2 h2
      obtain rfl := unique_of_nodup hrnd hc'' hc' k3 k1
      exact k4
  intro c hc a ha
  refine ⟨hrep c hc a ha, fun b => ⟨fun hb => ?_, ?_⟩⟩
  · by_cases hne : c.reports = []
    · obtain ⟨t, _, ht⟩ := d5 c hc hne
      rw [ht, List.mem_singleton] at ha hb
      exact Or.inl (hb.trans ha.symm)
    · obtain ⟨j, hj⟩ := List.exists_mem_of_ne_nil _ hne
      exact Or.inr ⟨j, (hrep c hc a ha j).1 hj, (hrep c hc b hb j).1 hj⟩
  · rintro (rfl | ⟨j, h1, h2⟩)
    · exact ha
    · have hj := (hrep c hc a ha j).2 h1
      obtain ⟨r, k1, k2⟩ := id h2
      obtain ⟨c', hc', k3, k4⟩ := d2 r k1.lt b ((hit r k1.lt b).2 k1)
      obtain ⟨c'', hc'', k5, k6⟩ := (chain r j k1.lt h2.lt).2 k2
      obtain rfl := unique_of_nodup hrnd hc'' hc' k5 k3
      obtain rfl := unique_of_nodup hrnd hc'' hc k6 hj
      exact k4

end Verif.Tracker
