import Verif.Tracker.Ties

/-!
# C108: what a scan does depends only on the targets that it reaches

Two corrections that do not reach each other's targets can be made in either order.
-/

namespace Verif.Tracker

open Verif.Cluster (Cl)
open Verif.Murty (Node PickOk)

variable {P R O : Type}

/-- **C108** Let two histories lead to states that agree about the targets that a scan reaches: the same targets,
with the same existence probabilities and densities.  Whatever else is tracked in either state, `correct` leaves
the reports with the same values and unexplained probabilities, computes the same existence probabilities and
alike densities for the targets in reach, leaves everything else as it is and starts the same targets. -/
theorem C108_local {E : Env P R O} (hbox : BoxOk E)
    (hcen : ∀ l l' : List O, l.Perm l' → E.center l = E.center l') (prm : Params) (fuel fuel' : Nat)
    (calls calls' : List (Call P R)) (hc : ∀ d ∈ calls, CallOk E d) (hc' : ∀ d ∈ calls', CallOk E d) (s₁ s₂ : St P)
    (e : run E prm fuel calls St.empty = some s₁) (e' : run E prm fuel' calls' St.empty = some s₂)
    (S : Sensor P R) (hS : CostsOk S) (ch ch' : Choices) (hwt : ch'.wt = ch.wt) (hw0 : ∀ q, 0 ≤ ch.wt q)
    (hp : ∀ r c, PickOk (ch.pick r c)) (hp' : ∀ r c, PickOk (ch'.pick r c)) (scan : List (Rep R)) (dflt dflt' : Rep R)
    (hok : CallOk E (.correct S ch scan dflt)) (hok' : CallOk E (.correct S ch' scan dflt'))
    (hthere : ∀ a t, s₁.heap a = some t → Gated E S scan s₁ a → ∃ t', s₂.heap a = some t' ∧ SameBut t t')
    (hback : ∀ a t', s₂.heap a = some t' → Gated E S scan s₂ a → ∃ t, s₁.heap a = some t ∧ SameBut t t')
    (s' s'' : St P) (reps reps' : Nat → Rep R)
    (e1 : correct E S prm ch fuel scan dflt s₁ = some (s', reps))
    (e2 : correct E S prm ch' fuel' scan dflt' s₂ = some (s'', reps'))
    (hset : ∀ cls s1 rcid, prepare E S scan s₁ = some (cls, s1, rcid) → ∀ c ∈ cls,
      SettledIn E S prm ch.wt s1.heap (initReps scan rcid dflt) c) :
    (∀ j < scan.length, (reps' j).rB = (reps j).rB ∧ (reps' j).val = (reps j).val) ∧
    (∀ a t, s₁.heap a = some t → Gated E S scan s₁ a → ∃ u u',
      Alike E (Joined E S prm ch scan dflt s₁ a) u u' ∧ u.id = t.id ∧
      Fate E S prm scan.length s' reps a u ∧ Fate E S prm scan.length s'' reps' a u') ∧
    (∀ a t, s₁.heap a = some t → ¬ Gated E S scan s₁ a → s'.heap a = some t) ∧
    (∀ a t, s₂.heap a = some t → ¬ Gated E S scan s₂ a → s''.heap a = some t) ∧
    ∃ old new old' new', s'.targets = old ++ new ∧ s''.targets = old' ++ new' ∧ old.Sublist s₁.targets ∧
      old'.Sublist s₂.targets ∧ Stay s₁ s' old ∧ Stay s₂ s'' old' ∧ (∀ b ∈ new, b ∉ s₁.targets ∨ Gated E S scan s₁ b) ∧
      (∀ b ∈ new', b ∉ s₂.targets ∨ Gated E S scan s₂ b) ∧
      (new.map fun b => (s'.heap b).map fun w => (w.r, w.pdf)).Perm
        (new'.map fun b => (s''.heap b).map fun w => (w.r, w.pdf)) :=
  local_order hbox hcen prm fuel fuel' calls calls' hc hc' s₁ s₂ e e' S hS ch ch' hwt hw0 hp hp' scan scan dflt dflt'
    hok hok' ⟨hthere, hback⟩ (Equiv.refl _) (fun _ => rfl) s' s'' reps reps' e1 e2 hset

/-! ## Two scans -/

theorem correct_inv {E : Env P R O} (hbox : BoxOk E) {S : Sensor P R} {prm : Params} {ch : Choices} {fuel : Nat}
    {scan : List (Rep R)} {dflt : Rep R} (hok : CallOk E (.correct S ch scan dflt)) {s s' : St P} (hs : Inv E s)
    {reps : Nat → Rep R} (e : correct E S prm ch fuel scan dflt s = some (s', reps)) : Inv E s' :=
  step_inv (prm := prm) (fuel := fuel) hbox hs hok (by simp [step, e])

theorem Alike.symm {E : Env P R O} {Q : P → List (ℝ × P) → Prop} {u u' : Tgt P} (h : Alike E Q u u') :
    Alike E (fun p l' => ∃ l, Q p l ∧ l.Perm l') u' u := by
  obtain ⟨h1, h2, h3, h4⟩ := h
  refine ⟨h1.symm, h2.symm, h3.symm, ?_⟩
  rcases h4 with h4 | ⟨p, l, l', k0, k1, k2, k3, k4⟩
  · exact Or.inl h4.symm
  · exact Or.inr ⟨p, l', l, ⟨l, k0, k1⟩, k1.symm, fun y hy => k2 y (k1.mem_iff.2 hy), k4, k3⟩

theorem Alike.imp {E : Env P R O} {Q Q' : P → List (ℝ × P) → Prop} {u u' : Tgt P} (h : Alike E Q u u')
    (hq : ∀ p l, Q p l → Q' p l) : Alike E Q' u u' :=
  ⟨h.1, Like.imp h.2 hq⟩

/-- What becomes of a target at address `a` with the value `u` computed by its cluster, if other targets may be
started at the address of a target that is gone. -/
def Ends (E : Env P R O) (prm : Params) (s' : St P) (a : Nat) (u : Tgt P) : Prop :=
  (prm.rlim ≤ u.r → E.covNorm u.pdf ≤ prm.covlim → s'.heap a = some u ∧ a ∈ s'.targets) ∧
  (u.r < prm.rlim ∨ prm.covlim < E.covNorm u.pdf → ∀ w, s'.heap a = some w → w.la = 'i')

theorem Fate.ends {E : Env P R O} {S : Sensor P R} {prm : Params} {n : Nat} {s' : St P} {reps : Nat → Rep R} {a : Nat}
    {u : Tgt P} (h : Fate E S prm n s' reps a u) : Ends E prm s' a u :=
  ⟨h.1, fun hu w hw => (h.2 hu w hw).1⟩

/-- A target out of reach keeps its end. -/
theorem Ends.later {E : Env P R O} (hbox : BoxOk E) {S : Sensor P R} {prm : Params} {ch : Choices} {fuel : Nat}
    {scan : List (Rep R)} {dflt : Rep R} (hok : CallOk E (.correct S ch scan dflt)) {s s' : St P} (hs : Inv E s)
    {reps : Nat → Rep R} (e : correct E S prm ch fuel scan dflt s = some (s', reps)) {a : Nat} {u : Tgt P}
    (hg : ¬ Gated E S scan s a) (h : Ends E prm s a u) : Ends E prm s' a u := by
  obtain ⟨cls, s1, rcid, new, d, n1, n2, _⟩ := correct_origin hbox hok.1 hok.2.1 hok.2.2 hs e
  have hs' := correct_inv hbox hok hs e
  constructor
  · intro h1 h2
    obtain ⟨g1, g2⟩ := h.1 h1 h2
    have : s'.heap a = some u := by
      rw [n2 a (fun h => (n1 a h).elim (fun h => h g2) hg) hg, g1]
    exact ⟨this, (hs'.ok.live a).1 ⟨u, this⟩⟩
  · intro hu w hw
    by_cases ha : a ∈ new
    · obtain ⟨k, hk⟩ := List.mem_iff_getElem?.1 ha
      have hlt := (List.getElem?_eq_some_iff.1 hk).1
      have hb := d.born k a _ _ hk (List.getElem?_eq_getElem (by rw [← d.len]; exact hlt))
      rw [hw] at hb
      rw [Option.some.inj hb]
    · rw [n2 a ha hg] at hw
      exact h.2 hu w hw

/-- Two scans, one after the other: the second leaves what the first has started. -/
theorem then_new {E : Env P R O} (hbox : BoxOk E) {S : Sensor P R} {prm : Params} {ch : Choices} {fuel : Nat}
    {scan : List (Rep R)} {dflt : Rep R} (hok : CallOk E (.correct S ch scan dflt)) {s s' : St P} (hs : Inv E s)
    {reps : Nat → Rep R} (e : correct E S prm ch fuel scan dflt s = some (s', reps)) {x : St P} {t0 old new old2 new2 : List Nat}
    (h1 : s.targets = old ++ new) (h2 : s'.targets = old2 ++ new2) (h3 : old.Sublist t0) (h4 : old2.Sublist s.targets)
    (h5 : ∀ b ∈ new2, b ∉ s.targets ∨ Gated E S scan s b) (hg : ∀ b ∈ new, ¬ Gated E S scan s b)
    (h6 : Stay x s old) (h7 : Stay s s' old2) :
    ∃ old', s'.targets = old' ++ (new ++ new2) ∧ old'.Sublist t0 ∧ Stay x s' old' ∧
      (new.map fun b => (s'.heap b).map fun w => (w.r, w.pdf)) = new.map fun b => (s.heap b).map fun w => (w.r, w.pdf) := by
  obtain ⟨cls, s1, rcid, nw, d, n1, n2, _⟩ := correct_origin hbox hok.1 hok.2.1 hok.2.2 hs e
  have hs' := correct_inv hbox hok hs e
  have hmem : ∀ b ∈ new, b ∈ s.targets := fun b hb => by rw [h1]; exact List.mem_append_right _ hb
  have hkeep : ∀ b ∈ new, s'.heap b = s.heap b := fun b hb =>
    n2 b (fun h => (n1 b h).elim (fun h => h (hmem b hb)) (hg b hb)) (hg b hb)
  rw [h1] at h4
  obtain ⟨o1, o2, rfl, k1, k2⟩ := List.sublist_append_iff.1 h4
  have hnd : (old ++ new).Nodup := h1 ▸ hs.ok.nodup
  have ho2 : o2 = new := by
    refine k2.eq_of_length_le (List.Subperm.length_le (List.subperm_of_subset (List.nodup_append.1 hnd).2.1 ?_))
    intro b hb
    obtain ⟨t, ht⟩ := (hs.ok.live b).2 (hmem b hb)
    have h6 : b ∈ s'.targets := (hs'.ok.live b).1 ⟨t, by rw [hkeep b hb, ht]⟩
    rw [h2, List.mem_append, List.mem_append] at h6
    rcases h6 with (h6 | h6) | h6
    · exact absurd rfl ((List.nodup_append.1 hnd).2.2 b (k1.subset h6) b hb)
    · exact h6
    · exact ((h5 b h6).elim (fun h => absurd (hmem b hb) h) fun h => absurd h (hg b hb))
  subst ho2
  refine ⟨o1, by rw [h2, List.append_assoc], k1.trans h3, fun b hb => ?_, ?_⟩
  · obtain ⟨t, u, m1, m2, m3⟩ := h6 b (k1.subset hb)
    obtain ⟨u', w, m4, m5, m6⟩ := h7 b (List.mem_append_left _ hb)
    rw [m2] at m4
    obtain rfl := Option.some.inj m4
    exact ⟨t, w, m1, m5, m6.trans m3⟩
  exact List.map_congr_left fun b hb => by rw [hkeep b hb]

/-- **C108, two scans** Let no target be in reach of both scans, and let neither reach a target that the other one
has changed or started.  Then the scans can be processed in either order: all reports get the same unexplained
probabilities, every target gets the same existence probability and an alike density, or is removed for the
same reason, and the same targets are started. -/
theorem C108_commute {E : Env P R O} (hbox : BoxOk E)
    (hcen : ∀ l l' : List O, l.Perm l' → E.center l = E.center l') (prm : Params) (fuel : Nat)
    (calls : List (Call P R)) (hc : ∀ d ∈ calls, CallOk E d) (s : St P) (e : run E prm fuel calls St.empty = some s)
    (S₁ S₂ : Sensor P R) (hS₁ : CostsOk S₁) (hS₂ : CostsOk S₂) (ch₁ ch₂ ch₁' ch₂' : Choices)
    (hwt₁ : ch₁'.wt = ch₁.wt) (hwt₂ : ch₂'.wt = ch₂.wt) (hw₁ : ∀ q, 0 ≤ ch₁.wt q) (hw₂ : ∀ q, 0 ≤ ch₂.wt q)
    (hp₁ : ∀ r c, PickOk (ch₁.pick r c)) (hp₂ : ∀ r c, PickOk (ch₂.pick r c))
    (hp₁' : ∀ r c, PickOk (ch₁'.pick r c)) (hp₂' : ∀ r c, PickOk (ch₂'.pick r c))
    (scan₁ scan₂ : List (Rep R)) (dflt : Rep R)
    (hok₁ : CallOk E (.correct S₁ ch₁ scan₁ dflt)) (hok₂ : CallOk E (.correct S₂ ch₂ scan₂ dflt))
    (hok₁' : CallOk E (.correct S₁ ch₁' scan₁ dflt)) (hok₂' : CallOk E (.correct S₂ ch₂' scan₂ dflt))
    (s₁ s₂ s₁₂ s₂₁ : St P) (reps₁ reps₂ reps₁' reps₂' : Nat → Rep R)
    (e₁ : correct E S₁ prm ch₁ fuel scan₁ dflt s = some (s₁, reps₁))
    (e₁₂ : correct E S₂ prm ch₂' fuel scan₂ dflt s₁ = some (s₁₂, reps₂'))
    (e₂ : correct E S₂ prm ch₂ fuel scan₂ dflt s = some (s₂, reps₂))
    (e₂₁ : correct E S₁ prm ch₁' fuel scan₁ dflt s₂ = some (s₂₁, reps₁'))
    (h0 : ∀ a, Gated E S₁ scan₁ s a → ¬ Gated E S₂ scan₂ s a)
    (h1 : ∀ a, Gated E S₂ scan₂ s₁ a → a ∈ s.targets ∧ ¬ Gated E S₁ scan₁ s a)
    (h2 : ∀ a, Gated E S₁ scan₁ s₂ a → a ∈ s.targets ∧ ¬ Gated E S₂ scan₂ s a)
    (hset₁ : ∀ cls s1 rcid, prepare E S₁ scan₁ s = some (cls, s1, rcid) → ∀ c ∈ cls,
      SettledIn E S₁ prm ch₁.wt s1.heap (initReps scan₁ rcid dflt) c)
    (hset₂ : ∀ cls s1 rcid, prepare E S₂ scan₂ s = some (cls, s1, rcid) → ∀ c ∈ cls,
      SettledIn E S₂ prm ch₂.wt s1.heap (initReps scan₂ rcid dflt) c) :
    (∀ j < scan₁.length, (reps₁' j).rB = (reps₁ j).rB ∧ (reps₁' j).val = (reps₁ j).val) ∧
    (∀ j < scan₂.length, (reps₂' j).rB = (reps₂ j).rB ∧ (reps₂' j).val = (reps₂ j).val) ∧
    (∀ a t, s.heap a = some t → Gated E S₁ scan₁ s a ∨ Gated E S₂ scan₂ s a → ∃ u u',
      Alike E (fun p l => ∃ l₀, l₀.Perm l ∧ (Joined E S₁ prm ch₁ scan₁ dflt s a p l₀ ∨
        Joined E S₂ prm ch₂ scan₂ dflt s a p l₀)) u u' ∧ u.id = t.id ∧
      Ends E prm s₁₂ a u ∧ Ends E prm s₂₁ a u') ∧
    (∀ a t, s.heap a = some t → ¬ Gated E S₁ scan₁ s a → ¬ Gated E S₂ scan₂ s a →
      s₁₂.heap a = some t ∧ s₂₁.heap a = some t) ∧
    ∃ old new old' new', s₁₂.targets = old ++ new ∧ s₂₁.targets = old' ++ new' ∧ old.Sublist s.targets ∧
      old'.Sublist s.targets ∧ Stay s s₁₂ old ∧ Stay s s₂₁ old' ∧
      (new.map fun b => (s₁₂.heap b).map fun w => (w.r, w.pdf)).Perm
        (new'.map fun b => (s₂₁.heap b).map fun w => (w.r, w.pdf)) := by
  have hs := run_inv hbox (Inv.empty E) hc e
  have hi₁ := correct_inv hbox hok₁ hs e₁
  have hi₂ := correct_inv hbox hok₂ hs e₂
  have r₁ : run E prm fuel (calls ++ [.correct S₁ ch₁ scan₁ dflt]) St.empty = some s₁ := by
    rw [run_append, e, Option.bind_some]
    simp [run, step, e₁]
  have r₂ : run E prm fuel (calls ++ [.correct S₂ ch₂ scan₂ dflt]) St.empty = some s₂ := by
    rw [run_append, e, Option.bind_some]
    simp [run, step, e₂]
  have hc₁ : ∀ d ∈ calls ++ [.correct S₁ ch₁ scan₁ dflt], CallOk E d := by
    intro d hd
    rcases List.mem_append.1 hd with h | h
    · exact hc d h
    · rw [List.mem_singleton] at h
      subst h
      exact hok₁
  have hc₂ : ∀ d ∈ calls ++ [.correct S₂ ch₂ scan₂ dflt], CallOk E d := by
    intro d hd
    rcases List.mem_append.1 hd with h | h
    · exact hc d h
    · rw [List.mem_singleton] at h
      subst h
      exact hok₂
  -- what is out of reach stays
  have stay₁ : ∀ a t, s.heap a = some t → ¬ Gated E S₁ scan₁ s a → s₁.heap a = some t := by
    obtain ⟨_, _, _, nw, _, n1, n2, _⟩ := correct_origin hbox hok₁.1 hok₁.2.1 hok₁.2.2 hs e₁
    intro a t ht hg
    rw [n2 a (fun h => (n1 a h).elim (fun h => h ((hs.ok.live a).1 ⟨t, ht⟩)) hg) hg, ht]
  have stay₂ : ∀ a t, s.heap a = some t → ¬ Gated E S₂ scan₂ s a → s₂.heap a = some t := by
    obtain ⟨_, _, _, nw, _, n1, n2, _⟩ := correct_origin hbox hok₂.1 hok₂.2.1 hok₂.2.2 hs e₂
    intro a t ht hg
    rw [n2 a (fun h => (n1 a h).elim (fun h => h ((hs.ok.live a).1 ⟨t, ht⟩)) hg) hg, ht]
  have key : ∀ {S T : Sensor P R} {l m : List (Rep R)} {x : St P},
      (∀ a t, s.heap a = some t → ¬ Gated E S l s a → x.heap a = some t) →
      (∀ a, Gated E S l s a → ¬ Gated E T m s a) →
      (∀ a, Gated E T m x a → a ∈ s.targets ∧ ¬ Gated E S l s a) →
      (∀ a t, s.heap a = some t → Gated E T m s a → ∃ t', x.heap a = some t' ∧ SameBut t t') ∧
      ∀ a t', x.heap a = some t' → Gated E T m x a → ∃ t, s.heap a = some t ∧ SameBut t t' := by
    intro S T l m x hst hno hx
    constructor
    · intro a t ht hg
      exact ⟨t, hst a t ht fun h => hno a h hg, rfl, rfl, rfl, rfl⟩
    · intro a t' ht' hg
      obtain ⟨g1, g2⟩ := hx a hg
      obtain ⟨t, ht⟩ := (hs.ok.live a).2 g1
      have := hst a t ht g2
      rw [ht'] at this
      obtain rfl := Option.some.inj this
      exact ⟨t', ht, rfl, rfl, rfl, rfl⟩
  obtain ⟨b1, b2⟩ := key stay₁ h0 h1
  obtain ⟨c1, c2⟩ := key stay₂ (fun a h h' => h0 a h' h) h2
  obtain ⟨A1, A2, A3, A4, oA, nA, oA', nA', A5, A6, A7, A8, A12, A13, A9, A10, A11⟩ := C108_local hbox hcen prm fuel fuel calls _ hc hc₂ s s₂
    e r₂ S₁ hS₁ ch₁ ch₁' hwt₁ hw₁ hp₁ hp₁' scan₁ dflt dflt hok₁ hok₁' c1 c2 s₁ s₂₁ reps₁ reps₁' e₁ e₂₁ hset₁
  obtain ⟨B1, B2, B3, B4, oB, nB, oB', nB', B5, B6, B7, B8, B12, B13, B9, B10, B11⟩ := C108_local hbox hcen prm fuel fuel calls _ hc hc₁ s s₁
    e r₁ S₂ hS₂ ch₂ ch₂' hwt₂ hw₂ hp₂ hp₂' scan₂ dflt dflt hok₂ hok₂' b1 b2 s₂ s₁₂ reps₂ reps₂' e₂ e₁₂ hset₂
  refine ⟨A1, B1, ?_, ?_, ?_⟩
  · rintro a t ht (hg | hg)
    · obtain ⟨u, u', g1, g2, g3, g4⟩ := A2 a t ht hg
      exact ⟨u, u', g1.imp fun p l h => ⟨l, List.Perm.refl _, Or.inl h⟩, g2, g3.ends.later hbox hok₂' hi₁ e₁₂ (fun h => (h1 a h).2 hg), g4.ends⟩
    · obtain ⟨u, u', g1, g2, g3, g4⟩ := B2 a t ht hg
      have h7 := g3.ends.later hbox hok₁' hi₂ e₂₁ (fun h => (h2 a h).2 hg)
      refine ⟨u', u, g1.symm.imp fun p l ⟨l₀, h, h'⟩ => ⟨l₀, h', Or.inr h⟩, g1.1.trans g2, g4.ends, h7⟩
  · intro a t ht g1 g2
    exact ⟨B4 a t (stay₁ a t ht g1) fun h => g2 ((⟨b1, b2⟩ : SameReach E S₂ scan₂ s s₁).gated a |>.1 h),
      A4 a t (stay₂ a t ht g2) fun h => g1 ((⟨c1, c2⟩ : SameReach E S₁ scan₁ s s₂).gated a |>.1 h)⟩
  · obtain ⟨o1, k1, k2, k4, k3⟩ := then_new hbox hok₂' hi₁ e₁₂ A5 B6 A7 B8 B10 (fun b hb hg => by
      obtain ⟨m1, m2⟩ := h1 b hg
      exact (A9 b hb).elim (fun h => h m1) m2) A12 B13
    obtain ⟨o2, l1, l2, l4, l3⟩ := then_new hbox hok₁' hi₂ e₂₁ B5 A6 B7 A8 A10 (fun b hb hg => by
      obtain ⟨m1, m2⟩ := h2 b hg
      exact (B9 b hb).elim (fun h => h m1) m2) B12 A13
    refine ⟨o1, _, o2, _, k1, l1, k2, l2, k4, l4, ?_⟩
    rw [List.map_append, List.map_append, k3, l3]
    exact ((A11.append B11.symm).trans List.perm_append_comm)

/-! ## A concrete case: sensors that look at 0 and at 100 -/

/-- One frame for everything; densities are positions. -/
noncomputable def exApart : Env ℚ ℚ ℚ :=
  { exE with toLocal := fun _ p => p, rLocal := fun _ z => z, rGlobal := fun _ z => z, center := fun _ => 0 }

/-- A sensor that sees targets within 10 of `x` and reports them at `x`. -/
noncomputable def exLook (x : ℚ) : Sensor ℚ ℚ :=
  { exS with fovBox := ⟨x - 10, -10, x + 10, 10⟩, inView := fun _ => true, upd := fun _ p _ => p, init := fun _ => x }

theorem exApart_box : BoxOk exApart := exE_box

theorem exLook_ok (x : ℚ) (ch : Choices) (hch : ChOk ch) : CallOk exApart (.correct (exLook x) ch [⟨x, none, 0⟩] ⟨0, none, 0⟩) := by
  refine ⟨⟨?_, ?_⟩, hch, fun z _ => exE_rbox _⟩
  · show x - 10 ≤ x + 10
    linarith
  · show (-10 : ℚ) ≤ 10
    norm_num

theorem exLook_costs (x : ℚ) : CostsOk (exLook x) :=
  ⟨exS_costs.det, exS_costs.miss, exS_costs.fls⟩

/-- Which targets such a sensor reaches. -/
theorem exLook_gated (x : ℚ) (s : St ℚ) (a : Nat) (h : Gated exApart (exLook x) [⟨x, none, 0⟩] s a) :
    ∃ t, s.heap a = some t ∧ |t.pdf - x| ≤ 11 := by
  obtain ⟨t, ht, h⟩ := h
  refine ⟨t, ht, ?_⟩
  rw [abs_le]
  rcases h with ⟨⟨y, _, h1, h2⟩, _⟩ | ⟨z, hz, y, _, h1, h2⟩
  · have h3 : x - 10 ≤ y := h1.1
    have h4 : y ≤ x + 10 := h1.2.1
    have h5 : t.pdf - 1 ≤ y := h2.1
    have h6 : y ≤ t.pdf + 1 := h2.2.1
    constructor <;> linarith
  · rw [List.mem_singleton] at hz
    subst hz
    have h3 : x ≤ y := h1.1
    have h4 : y ≤ x := h1.2.1
    have h5 : t.pdf - 1 ≤ y := h2.1
    have h6 : y ≤ t.pdf + 1 := h2.2.1
    constructor <;> linarith

theorem exApart_keeps (x : ℚ) : EnvKeeps exApart fun p => p = x :=
  ⟨fun _ _ h => h, fun _ h => h, fun _ h => ⟨h, zero_le_one, le_refl _⟩, fun _ _ _ h _ _ => h⟩

theorem exLook_keeps (x : ℚ) (ch : Choices) (hwt : ch.wt = Hyp.ew) (scan : List (Rep ℚ)) (dflt : Rep ℚ) :
    CallKeeps (fun p => p = x) (.correct (exLook x) ch scan dflt) :=
  ⟨fun q => by rw [hwt]; exact (Hyp.ew_pos q).le, fun _ => rfl, fun _ _ _ h => h, fun _ _ h => h⟩


/-- A target at 0 is there; then a scan at 0 and one at 100, in either order. -/
example : ∃ (F : Nat) (s s₁ s₂ s₁₂ s₂₁ : St ℚ) (reps₁ reps₂ reps₁' reps₂' : Nat → Rep ℚ),
    run exApart exPrmAll F [.correct (exLook 0) exCh [⟨0, none, 0⟩] ⟨0, none, 0⟩] St.empty = some s ∧
    correct exApart (exLook 0) exPrmAll exCh F [⟨0, none, 0⟩] ⟨0, none, 0⟩ s = some (s₁, reps₁) ∧
    correct exApart (exLook 100) exPrmAll exCh' F [⟨100, none, 0⟩] ⟨0, none, 0⟩ s₁ = some (s₁₂, reps₂') ∧
    correct exApart (exLook 100) exPrmAll exCh F [⟨100, none, 0⟩] ⟨0, none, 0⟩ s = some (s₂, reps₂) ∧
    correct exApart (exLook 0) exPrmAll exCh' F [⟨0, none, 0⟩] ⟨0, none, 0⟩ s₂ = some (s₂₁, reps₁') ∧
    (reps₁' 0).rB = (reps₁ 0).rB ∧ (reps₂' 0).rB = (reps₂ 0).rB := by
  have hdef : ∀ x y : ℚ, ∃ F s, ∀ fuel, F ≤ fuel → run exApart exPrmAll fuel
      [.correct (exLook 0) exCh [⟨0, none, 0⟩] ⟨0, none, 0⟩, .correct (exLook x) exCh [⟨x, none, 0⟩] ⟨0, none, 0⟩,
        .correct (exLook y) exCh' [⟨y, none, 0⟩] ⟨0, none, 0⟩] St.empty = some s := by
    intro x y
    refine C26_defined exApart_box exPrmAll _ ?_ ?_ (by simp [Call.reports])
    · intro c hc
      simp only [List.mem_cons, List.not_mem_nil, or_false] at hc
      rcases hc with rfl | rfl | rfl
      · exact exLook_ok _ _ exCh_ok
      · exact exLook_ok _ _ exCh_ok
      · exact exLook_ok _ _ exCh'_ok
    · intro c hc
      simp only [List.mem_cons, List.not_mem_nil, or_false] at hc
      rcases hc with rfl | rfl | rfl
      · exact ⟨exLook_costs _, exCh_pick⟩
      · exact ⟨exLook_costs _, exCh_pick⟩
      · exact ⟨exLook_costs _, exCh_pick⟩
  have hsplit : ∀ {F : Nat} {x y : ℚ} {s' : St ℚ}, run exApart exPrmAll F
      [.correct (exLook 0) exCh [⟨0, none, 0⟩] ⟨0, none, 0⟩, .correct (exLook x) exCh [⟨x, none, 0⟩] ⟨0, none, 0⟩,
        .correct (exLook y) exCh' [⟨y, none, 0⟩] ⟨0, none, 0⟩] St.empty = some s' →
      ∃ s t r t' r', run exApart exPrmAll F [.correct (exLook 0) exCh [⟨0, none, 0⟩] ⟨0, none, 0⟩] St.empty = some s ∧
        correct exApart (exLook x) exPrmAll exCh F [⟨x, none, 0⟩] ⟨0, none, 0⟩ s = some (t, r) ∧
        correct exApart (exLook y) exPrmAll exCh' F [⟨y, none, 0⟩] ⟨0, none, 0⟩ t = some (t', r') := by
    intro F x y s' h
    simp only [run, step] at h ⊢
    cases h1 : correct exApart (exLook 0) exPrmAll exCh F [⟨0, none, 0⟩] ⟨0, none, 0⟩ St.empty with
    | none => simp [h1] at h
    | some u =>
      simp only [h1, Option.map_some] at h
      cases h2 : correct exApart (exLook x) exPrmAll exCh F [⟨x, none, 0⟩] ⟨0, none, 0⟩ u.1 with
      | none => simp [h2] at h
      | some v =>
        simp only [h2, Option.map_some] at h
        cases h3 : correct exApart (exLook y) exPrmAll exCh' F [⟨y, none, 0⟩] ⟨0, none, 0⟩ v.1 with
        | none => simp [h3] at h
        | some w => exact ⟨u.1, v.1, v.2, w.1, w.2, rfl, h2, h3⟩
  obtain ⟨F1, x1, g1⟩ := hdef 0 100
  obtain ⟨F2, x2, g2⟩ := hdef 100 0
  obtain ⟨s, s₁, reps₁, s₁₂, reps₂', r0, e₁, e₁₂⟩ := hsplit (g1 (max F1 F2) (le_max_left _ _))
  obtain ⟨s0, s₂, reps₂, s₂₁, reps₁', r1, e₂, e₂₁⟩ := hsplit (g2 (max F1 F2) (le_max_right _ _))
  rw [r0] at r1
  obtain rfl := Option.some.inj r1
  refine ⟨_, s, s₁, s₂, s₁₂, s₂₁, reps₁, reps₂, reps₁', reps₂', r0, e₁, e₁₂, e₂, e₂₁, ?_⟩
  have hc : ∀ d ∈ [Call.correct (exLook 0) exCh [⟨0, none, 0⟩] ⟨0, none, 0⟩], CallOk exApart d := by
    intro d hd
    rw [List.mem_singleton] at hd
    subst hd
    exact exLook_ok _ _ exCh_ok
  have hs := run_inv exApart_box (Inv.empty _) hc r0
  -- where the targets are
  have hlim : (0 : ℝ) ≤ exPrmAll.rlim ∧ (0 : ℝ) ≤ exPrmAll.rBmax ∧ exPrmAll.rBmax ≤ 1 := by
    refine ⟨?_, ?_, ?_⟩ <;> simp only [exPrmAll] <;> norm_num
  have hst0 : step exApart exPrmAll (max F1 F2) St.empty (.correct (exLook 0) exCh [⟨0, none, 0⟩] ⟨0, none, 0⟩) = some s := by
    simp only [run] at r0
    cases h : step exApart exPrmAll (max F1 F2) St.empty (.correct (exLook 0) exCh [⟨0, none, 0⟩] ⟨0, none, 0⟩) with
    | none => simp [h] at r0
    | some u => simpa [h] using r0
  have hat : ∀ a t, s.heap a = some t → t.pdf = 0 := fun a t ht =>
    (step_keeps exApart_box (exApart_keeps 0) hlim.1 hlim.2.1 hlim.2.2 (Inv.empty _) (exLook_ok _ _ exCh_ok)
      (exLook_keeps 0 exCh rfl _ _) (fun _ _ h => by cases h) hst0 a t ht).2.2
  have hrr : ∀ a t, s.heap a = some t → TOk (fun p => p = 0) t := fun a t ht =>
    step_keeps exApart_box (exApart_keeps 0) hlim.1 hlim.2.1 hlim.2.2 (Inv.empty _) (exLook_ok _ _ exCh_ok)
      (exLook_keeps 0 exCh rfl _ _) (fun _ _ h => by cases h) hst0 a t ht
  have hat1 : ∀ a t, s₁.heap a = some t → t.pdf = 0 := fun a t ht =>
    (step_keeps (fuel := max F1 F2) exApart_box (exApart_keeps 0) hlim.1 hlim.2.1 hlim.2.2 hs (exLook_ok _ _ exCh_ok)
      (exLook_keeps 0 exCh rfl _ _) hrr (by simp [step, e₁]) a t ht).2.2
  have hfar : ∀ {x : St ℚ}, (∀ a t, x.heap a = some t → t.pdf = 0) → ∀ a,
      ¬ Gated exApart (exLook 100) [⟨100, none, 0⟩] x a := by
    intro x hx a h
    obtain ⟨t, ht, h⟩ := exLook_gated _ _ _ h
    rw [hx a t ht] at h
    norm_num at h
  have h2 : ∀ a, Gated exApart (exLook 0) [⟨0, none, 0⟩] s₂ a → a ∈ s.targets ∧
      ¬ Gated exApart (exLook 100) [⟨100, none, 0⟩] s a := by
    intro a hg
    refine ⟨?_, hfar hat a⟩
    obtain ⟨t, ht, hd⟩ := exLook_gated _ _ _ hg
    obtain ⟨_, _, _, nw, d, _, n2, _⟩ := correct_origin exApart_box (exLook_ok 100 _ exCh_ok).1 exCh_ok
      (exLook_ok 100 _ exCh_ok).2.2 hs e₂
    by_cases ha : a ∈ nw
    · exfalso
      obtain ⟨k, hk⟩ := List.mem_iff_getElem?.1 ha
      have hb := d.born k a _ _ hk (List.getElem?_eq_getElem (by rw [← d.len]; exact (List.getElem?_eq_some_iff.1 hk).1))
      rw [ht] at hb
      have : t.pdf = 100 := by rw [Option.some.inj hb]; rfl
      rw [this] at hd
      norm_num at hd
    · rw [n2 a ha (hfar hat a)] at ht
      exact (hs.ok.live a).1 ⟨t, ht⟩
  have hnum : ∀ x : ℚ, ((([⟨x, none, 0⟩] : List (Rep ℚ)).length : ℝ) + 60) ^ 30 ≤ exPrmAll.nhypMax := by
    intro x
    show (((1 : ℕ) : ℝ) + 60) ^ 30 ≤ 63 ^ 30
    norm_num
  obtain ⟨A, B, _⟩ := C108_commute exApart_box (fun _ _ _ => rfl) exPrmAll _ _ hc s r0 (exLook 0) (exLook 100)
    (exLook_costs _) (exLook_costs _) exCh exCh exCh' exCh' rfl rfl (fun q => (Hyp.ew_pos q).le)
    (fun q => (Hyp.ew_pos q).le) exCh_pick exCh_pick exCh_pick exCh_pick _ _ _ (exLook_ok _ _ exCh_ok)
    (exLook_ok _ _ exCh_ok) (exLook_ok _ _ exCh'_ok) (exLook_ok _ _ exCh'_ok) s₁ s₂ s₁₂ s₂₁ reps₁ reps₂ reps₁' reps₂'
    e₁ e₁₂ e₂ e₂₁ (fun a _ => hfar hat a) (fun a h => absurd h (hfar hat1 a)) h2
    (unlimited_settled exApart_box hs (exLook_costs _) (fun q => (Hyp.ew_pos q).le) exCh_pick (exLook_ok _ _ exCh_ok) e₁
      (le_refl _) (hnum 0))
    (unlimited_settled exApart_box hs (exLook_costs _) (fun q => (Hyp.ew_pos q).le) exCh_pick (exLook_ok _ _ exCh_ok) e₂
      (le_refl _) (hnum 100))
  exact ⟨(A 0 (by simp)).1, (B 0 (by simp)).1⟩

/-! ## One scan or two -/

/-- A sensor that starts targets where its reports are, and looks nowhere else. -/
noncomputable def exBlind : Sensor ℚ ℚ := { exS with inView := fun _ => false }

/-- **C108 refuted for parts of a scan** The reports of a scan do not act on their own, however far apart they are:
`birth` divides their `rB` by the sum over the scan.  Two reports in one scan start targets with existence
probability 1/4 each; the same reports in two scans start targets with 1/2 each. -/
theorem C108_split_refuted : ¬ ∀ (fuel : Nat) (S : Sensor ℚ ℚ) (ch : Choices) (z₁ z₂ dflt : Rep ℚ) (s s₁ s₂ : St ℚ)
    (reps reps₁ reps₂ : Nat → Rep ℚ), CostsOk S → CallOk exApart (.correct S ch [z₁, z₂] dflt) →
    correct exApart S exPrm ch fuel [z₁, z₂] dflt St.empty = some (s, reps) →
    correct exApart S exPrm ch fuel [z₁] dflt St.empty = some (s₁, reps₁) → (∀ a, ¬ Gated exApart S [z₂] s₁ a) →
    correct exApart S exPrm ch fuel [z₂] dflt s₁ = some (s₂, reps₂) →
    ∀ a ∈ s.targets, ∃ b ∈ s₂.targets, ((s₂.heap b).map fun w => w.r) = (s.heap a).map fun w => w.r := by
  intro H
  have hok : ∀ l : List (Rep ℚ), CallOk exApart (.correct exBlind exCh l ⟨0, none, 0⟩) :=
    fun l => ⟨exS_fov, exCh_ok, fun z _ => exE_rbox _⟩
  have hno : ∀ (l : List (Rep ℚ)) (a : Nat), ¬ Gated exApart exBlind l (St.empty : St ℚ) a := by
    rintro l a ⟨t, ht, _⟩
    simp [St.empty] at ht
  obtain ⟨s, reps, new, g1, g2, _, g4, g5, _⟩ := C58_unreached_scan exApart_box exPrm 0 [] (by simp) St.empty rfl exBlind
    exCh [⟨0, none, 0⟩, ⟨100, none, 0⟩] ⟨0, none, 0⟩ (hok _) (hno _)
  obtain ⟨s₁, reps₁, new₁, k1, k2, _, k4, _⟩ := C58_unreached_scan exApart_box exPrm 0 [] (by simp) St.empty rfl exBlind
    exCh [⟨0, none, 0⟩] ⟨0, none, 0⟩ (hok _) (hno _)
  have hrun : run exApart exPrm 0 [.correct exBlind exCh [⟨0, none, 0⟩] ⟨0, none, 0⟩] St.empty = some s₁ := by
    simp [run, step, k1]
  have hc : ∀ d ∈ [Call.correct exBlind exCh [⟨0, none, 0⟩] ⟨0, none, 0⟩], CallOk exApart d := by
    intro d hd
    rw [List.mem_singleton] at hd
    subst hd
    exact hok _
  have hs₁ := run_inv exApart_box (Inv.empty _) hc hrun
  have hfar : ∀ a, ¬ Gated exApart exBlind [⟨100, none, 0⟩] s₁ a := by
    rintro a ⟨t, ht, h⟩
    rcases h with ⟨_, h⟩ | ⟨z, hz, y, _, h1, h2⟩
    · exact absurd h (by simp [exBlind])
    · rw [List.mem_singleton] at hz
      subst hz
      obtain ⟨_, _, _, nw, d, _, n2, _⟩ := correct_origin exApart_box (hok [⟨0, none, 0⟩]).1 exCh_ok
        (hok [⟨0, none, 0⟩]).2.2 (Inv.empty _) k1
      by_cases ha : a ∈ nw
      · obtain ⟨k, hk⟩ := List.mem_iff_getElem?.1 ha
        obtain ⟨p, hp⟩ : ∃ p, (births exBlind exPrm exCh.ord _ 1 reps₁)[k]? = some p :=
          ⟨_, List.getElem?_eq_getElem (by
            have := d.len
            rw [show ([⟨0, none, 0⟩] : List (Rep ℚ)).length = 1 from rfl] at this
            rw [← this]
            exact (List.getElem?_eq_some_iff.1 hk).1)⟩
        have hb := d.born k a p.1 p.2 hk hp
        have hj : p.1 = 0 := by
          obtain ⟨_, _, _, q1, _, _, _, _, q6, _⟩ := prepare_ok exApart_box (hok [⟨0, none, 0⟩]).1
            (hok [⟨0, none, 0⟩]).2.2 (Inv.empty exApart).ok
          rw [d.prep, Option.some.injEq, Prod.mk.injEq, Prod.mk.injEq] at q1
          obtain ⟨rfl, rfl, rfl⟩ := q1
          have := (births_mem exCh_ok.ord q6 (List.mem_of_getElem? hp)).1
          have : p.1 < 1 := this
          omega
        rw [hj] at hb
        obtain ⟨o, ho⟩ := C58_reports_kept exApart_box exPrm 0 [] (by simp) St.empty rfl exBlind exCh [⟨0, none, 0⟩]
          ⟨0, none, 0⟩ (hok _) s₁ reps₁ k1 0 _ rfl
        rw [ht] at hb
        have hpd : t.pdf = 0 := by
          rw [Option.some.inj hb]
          show (reps₁ 0).val = 0
          rw [ho]
          rfl
        have h3 : (100 : ℚ) ≤ y := h1.1
        have h4 : y ≤ t.pdf + 1 := h2.2.1
        rw [hpd] at h4
        norm_num at h4
        linarith
      · rw [n2 a ha (hno _ a)] at ht
        simp [St.empty] at ht
  obtain ⟨s₂, reps₂, new₂, m1, m2, m3, m4, _⟩ := C58_unreached_scan exApart_box exPrm 0 _ hc s₁ hrun exBlind exCh
    [⟨100, none, 0⟩] ⟨0, none, 0⟩ (hok _) hfar
  have hlen := g5 (by simp only [exPrm]; norm_num) (by simp only [exPrm, exBlind, exS]; norm_num)
  simp only [St.empty, List.nil_append] at g2 k2
  obtain ⟨a, ha⟩ : ∃ a, a ∈ new := List.exists_mem_of_ne_nil _ (by
    intro h
    rw [h] at hlen
    simp at hlen)
  obtain ⟨t, ht, hr⟩ := g4 a ha
  obtain ⟨b, hb, h⟩ := H 0 exBlind exCh _ _ _ s s₁ s₂ reps reps₁ reps₂ ⟨exS_costs.det, exS_costs.miss, exS_costs.fls⟩
    (hok _) g1 k1 hfar m1 a (by rw [g2]; exact ha)
  have hhalf : ∃ w, s₂.heap b = some w ∧ w.r = 1 / 2 := by
    rw [m2] at hb
    rcases List.mem_append.1 hb with hb | hb
    · have h1 := m3 b hb
      rw [k2] at hb
      obtain ⟨w, hw, hw2⟩ := k4 b hb
      refine ⟨w, h1.trans hw, ?_⟩
      rw [hw2]
      simp only [exPrm, exBlind, exS]
      norm_num
    · obtain ⟨w, hw, hw2⟩ := m4 b hb
      refine ⟨w, hw, ?_⟩
      rw [hw2]
      simp only [exPrm, exBlind, exS]
      norm_num
  obtain ⟨w, hw, hw2⟩ := hhalf
  rw [hw, ht, Option.map_some, Option.map_some, Option.some.injEq, hw2, hr] at h
  simp only [exPrm, exBlind, exS] at h
  norm_num at h

end Verif.Tracker
