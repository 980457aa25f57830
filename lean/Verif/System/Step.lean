import Verif.System.Fuel
import Verif.Tracker.Props3

/-! # Invariants of single targets over all histories -/

namespace Verif.Tracker

open Verif.Cluster (Cl)
open Verif.Hyp Verif.Lap Verif.Murty

variable {P R O : Type}

/-- The call keeps `T` for the targets it leaves: the predicted ones and those computed by a cluster
as far as they are viable, and the new ones. -/
def CallTgt (E : Env P R O) (prm : Params) (fuel : Nat) (T : Tgt P → Prop) : Call P R → Prop
  | .predict m _ => ∀ t, T t → viable E prm (predictTgt E m t) = true → T (predictTgt E m t)
  | .correct S ch scan _ =>
    (∀ (ts : List (Nat × Tgt P)) (rs : List R) (v : Comp P R), (∀ x ∈ ts, T x.2) →
      rs.length ≤ scan.length → compute E S prm ch.pick fuel ch.wt ts rs = some v →
      ∀ t ∈ v.ts, viable E prm t = true → T t) ∧
    ∀ z id x cid, prm.rlim ≤ x → T ⟨id, min x prm.rBmax, S.init z, cid, 'i'⟩

theorem step_tgt {E : Env P R O} (hbox : BoxOk E) {T : Tgt P → Prop}
    (hT : ∀ t u : Tgt P, u.r = t.r → u.pdf = t.pdf → T t → T u) {prm : Params} {fuel : Nat}
    {s s' : St P} (hs : Inv E s) {c : Call P R} (hc : CallOk E c) (hg : CallTgt E prm fuel T c)
    (hold : ∀ a t, s.heap a = some t → T t) (e : step E prm fuel s c = some s') :
    ∀ a t, s'.heap a = some t → T t := by
  cases c with
  | predict m ord =>
    obtain ⟨s1, h1, h2, h3, h4, h5⟩ := predict_spec hbox prm m hc hs.ok
    simp only [step, h1, Option.some.injEq] at e
    subst e
    intro a u hu
    rw [h4, Option.filter_eq_some_iff, Option.map_eq_some_iff] at hu
    obtain ⟨⟨t, ht, rfl⟩, hv⟩ := hu
    exact hg t (hold a t ht) hv
  | correct S ch scan dflt =>
    obtain ⟨hf, hch, hz⟩ := hc
    obtain ⟨g1, g2⟩ := hg
    simp only [step, Option.map_eq_some_iff] at e
    obtain ⟨⟨s2, reps⟩, e, rfl⟩ := e
    obtain ⟨cls, s1, rcid, new, h1, h2, h3, h4⟩ := correct_origin hbox hf hch hz hs e
    obtain ⟨cls', s1', rcid', p1, p2, p3, p4, p5, p6, p7, p8, p9, p10⟩ :=
      prepare_ok hbox hf hz hs.ok
    rw [h1.prep, Option.some.injEq, Prod.mk.injEq, Prod.mk.injEq] at p1
    obtain ⟨rfl, rfl, rfl⟩ := p1
    intro a u hu
    by_cases hn : a ∈ new
    · obtain ⟨k, hk⟩ := List.mem_iff_getElem?.1 hn
      obtain ⟨j, x, hjx, hh⟩ := h1.new_born hk
      have hm := births_mem hch.ord p6 (List.mem_of_getElem? hjx)
      simp only at hu
      rw [hu] at hh
      injection hh with hh
      subst hh
      exact g2 _ _ _ _ hm.2.1
    · by_cases hgt : Gated E S scan s a
      · obtain ⟨hv, t, c, v, k, _, _, hcm, _, hcv, hk⟩ := h4 a hn hgt u hu
        unfold compOf at hcv
        cases hr : readAll s1.heap c.targets with
        | none => simp [hr] at hcv
        | some ts =>
          simp only [hr] at hcv
          refine g1 ts _ v ?_ ?_ hcv u (List.mem_of_getElem? hk) hv
          · intro x hx
            have := (readAll_spec hr).2 x hx
            obtain ⟨t0, q1, q2, q3, q4, _⟩ := p10 _ _ this
            exact hT _ _ q3 q4 (hold _ _ q1)
          · rw [List.length_map]
            obtain ⟨l1, l2, hl⟩ := List.append_of_mem hcm
            have := p6.length_eq
            rw [hl, List.flatMap_append, List.flatMap_cons, List.length_append, List.length_append,
              List.length_range] at this
            omega
      · simp only at hu
        rw [h3 a hn hgt] at hu
        exact hold a u hu

theorem run_tgt {E : Env P R O} (hbox : BoxOk E) {T : Tgt P → Prop}
    (hT : ∀ t u : Tgt P, u.r = t.r → u.pdf = t.pdf → T t → T u) {prm : Params} {fuel : Nat}
    {calls : List (Call P R)} (hc : ∀ c ∈ calls, CallOk E c)
    (hg : ∀ c ∈ calls, CallTgt E prm fuel T c) {s : St P}
    (e : run E prm fuel calls St.empty = some s) : ∀ a t, s.heap a = some t → T t := by
  have key : ∀ (calls : List (Call P R)) (s0 : St P), Inv E s0 →
      (∀ a t, s0.heap a = some t → T t) → (∀ c ∈ calls, CallOk E c) →
      (∀ c ∈ calls, CallTgt E prm fuel T c) → run E prm fuel calls s0 = some s →
      ∀ a t, s.heap a = some t → T t := by
    intro calls
    induction calls with
    | nil =>
      intro s0 _ h0 _ _ e
      simp only [run, Option.some.injEq] at e
      subst e
      exact h0
    | cons c l ih =>
      intro s0 hi h0 hc hg e
      simp only [run] at e
      cases h : step E prm fuel s0 c with
      | none => simp [h] at e
      | some s1 =>
        simp only [h] at e
        exact ih s1 (step_inv hbox hi (hc c List.mem_cons_self) h)
          (step_tgt hbox hT hi (hc c List.mem_cons_self) (hg c List.mem_cons_self) h0 h)
          (fun d hd => hc d (List.mem_cons_of_mem _ hd))
          (fun d hd => hg d (List.mem_cons_of_mem _ hd)) e
  exact key calls St.empty (Inv.empty E) (fun a t h => by simp [St.empty] at h) hc hg e

end Verif.Tracker

namespace Verif.Hyp

open Verif.Lap Verif.Murty

variable {M N : Nat}

/-- A target gets weight from a report only if the cost of that pair is finite. -/
theorem hypotheses_finite {det : Fin M → Fin N → XR} {miss fls : Fin M → XR}
    (hd : ∀ i j, XR.IsC (det i j)) (hm : ∀ i, XR.IsC (miss i)) (hf : ∀ i, XR.IsFin (fls i))
    (hM0 : 0 < M) {pick : List (Node M (N + 2 * M)) → Nat} (hp : PickOk pick) {fuel : Nat}
    {wt : ℚ → ℝ} {wlim nmax : ℝ} {a : Acc M N}
    (e : hypotheses pick fuel wt wlim nmax (costMatrix det miss fls) = some a) (i : Fin M)
    (j : Fin N) (h : a.R i j.castSucc ≠ 0) : XR.IsFin (det i j) := by
  have hM : M ≤ 30 := by
    by_contra hc
    rw [cluster_target_limit hd hm hf (by omega) hp] at e
    cases e
  obtain ⟨F, L, a', g1, g2, _, g4, _⟩ :=
    hypotheses_spec (costMatrix_ok hd hm hf) hM0 hM hp wt wlim nmax
  have h1 := hypotheses_mono pick wt wlim nmax (le_max_left fuel F) e
  rw [g1 _ (le_max_right fuel F)] at h1
  obtain rfl := Option.some.inj h1
  rw [g2.R] at h
  have : ∃ σ ∈ L, target i (σ i) = some j.castSucc := by
    by_contra hc
    push Not at hc
    apply h
    have : (L.filter fun σ => target i (σ i) = some j.castSucc) = [] := by
      rw [List.filter_eq_nil_iff]
      intro σ hσ
      simpa using hc σ hσ
    rw [this]
    rfl
  obtain ⟨σ, hσ, ht⟩ := this
  rw [target_eq] at ht
  have hfin := (g4 σ hσ).2 i
  rcases ht with ⟨_, h2⟩ | ⟨h2, _⟩
  · have hlt : (σ i).val < N := by rw [h2]; exact j.2
    unfold costMatrix at hfin
    rw [dif_pos hlt] at hfin
    have : (⟨(σ i).val, hlt⟩ : Fin N) = j := Fin.ext (by simpa using h2)
    rw [this] at hfin
    exact hfin
  · have := j.2
    simp at h2
    omega

end Verif.Hyp
