import Verif.Tracker.Hist
import Mathlib.Analysis.SpecialFunctions.Pow.Real

/-! # Properties of the tracker (C24–C31) -/

namespace Verif.Tracker

open Verif.RTree (Rect WF items)
open Verif.Cluster (Cl)
open Verif.Hyp Verif.Lap Verif.Murty

variable {P R O : Type}

/-! ## A concrete tracker

Densities, reports and frames are rational numbers on a line. -/

/-- The example environment. -/
noncomputable def exE : Env ℚ ℚ ℚ where
  box p := ⟨p - 1, 0, p + 1, 1⟩
  covNorm _ := 1
  pos p := p
  toLocal o p := p - o
  toGlobal p := p
  normalize p := p
  eta _ := 1
  join p _ _ := p
  rpos z := z
  rbox z := ⟨z, 0, z, 1⟩
  rLocal o z := z - o
  rGlobal o z := z + o
  center l := l.headD 0
  areas := .exact

/-- The example sensor. -/
noncomputable def exS : Sensor ℚ ℚ where
  fovBox := ⟨-10, -10, 10, 10⟩
  inView p := p < 5
  lambdaB := 1 / 2
  upd _ p z := (p + z) / 2
  detCost _ _ p z := if p < z then XR.pinf else XR.fin (1 + p - z)
  missPdf _ p := p
  missCost _ _ _ := XR.fin 2
  flsCost _ := XR.fin 1
  init z := z

/-- Default parameters, `params.hpp:5-14`. -/
noncomputable def exPrm : Params := ⟨1/100, 1/20, 100, 4/5, 150⟩

/-- A constant-velocity step with survival probability `pS`. -/
noncomputable def exM : Motion ℚ := ⟨fun p => p + 1, 9 / 10⟩

/-- Choices: clusters one after the other, births in order, smallest free address. -/
noncomputable def exCh : Choices where
  sched cls := (List.range cls.length).flatMap fun i => [i, i, i]
  ord l := l
  alloc l := l.sum + 1
  pick r c := (exists_pickOk (n := r) (m := c)).choose
  wt := ew

theorem exE_box : BoxOk exE := by
  refine boxOk_exact rfl fun p => ?_
  constructor
  · show p - 1 ≤ p + 1; linarith
  · show (0 : ℚ) ≤ 1; norm_num

theorem exE_rbox : ∀ z, (exE.rbox z).Valid := by
  intro z; constructor
  · exact le_refl _
  · show (0 : ℚ) ≤ 1; norm_num

theorem exS_fov : exS.fovBox.Valid := by
  constructor <;> · show (-10 : ℚ) ≤ 10; norm_num

theorem exCh_ok : ChOk exCh := by
  refine ⟨?_, fun l => List.Perm.refl _, ?_⟩
  · intro cls i
    show ((List.range cls.length).flatMap fun i => [i, i, i]).count i = _
    generalize cls.length = n
    induction n with
    | zero => simp
    | succ n ih =>
      rw [List.range_succ, List.flatMap_append, List.count_append, ih]
      by_cases h1 : i < n
      · have : n ≠ i := by omega
        simp [h1, this, show i < n + 1 by omega]
      · by_cases h2 : i = n
        · subst h2; simp
        · have : n ≠ i := by omega
          simp [h1, this, show ¬ i < n + 1 by omega]
  · intro l h
    have : ∀ (l : List Nat) a, a ∈ l → a ≤ l.sum := by
      intro l
      induction l with
      | nil => simp
      | cons b l ih =>
        intro a ha
        rw [List.sum_cons]
        rcases List.mem_cons.1 ha with rfl | ha
        · omega
        · have := ih a ha; omega
    have := this l _ h
    simp only [exCh] at this
    omega

theorem exCh_pick : ∀ r c, PickOk (exCh.pick r c) := fun r c =>
  (exists_pickOk (n := r) (m := c)).choose_spec

theorem exS_costs : CostsOk exS := by
  refine ⟨fun a r p z => ?_, fun _ _ _ => Or.inr ⟨_, rfl⟩, fun _ => ⟨_, rfl⟩⟩
  simp only [exS]
  split
  · exact Or.inl rfl
  · exact Or.inr ⟨_, rfl⟩

/-- A scan of three reports; `rB` of the last is a leftover of an earlier scan, that of the first
was never assigned. -/
def exScan : List (Rep ℚ) := [⟨0, none, 0⟩, ⟨1, some 0, 0⟩, ⟨4, some 7, 3⟩]

/-- A history: births, prediction, and a correction of the newborn targets. -/
noncomputable def exCalls : List (Call ℚ ℚ) :=
  [.correct exS exCh exScan ⟨0, none, 0⟩, .predict exM id, .correct exS exCh exScan ⟨0, none, 0⟩]

theorem exCalls_ok : ∀ c ∈ exCalls, CallOk exE c := by
  intro c hc
  simp only [exCalls, List.mem_cons, List.not_mem_nil, or_false] at hc
  rcases hc with rfl | rfl | rfl
  · exact ⟨exS_fov, exCh_ok, fun z _ => exE_rbox _⟩
  · exact fun l => List.Perm.refl _
  · exact ⟨exS_fov, exCh_ok, fun z _ => exE_rbox _⟩

/-! ## C26 -/

/-- **C26** After any history of `predict` and `correct`, the index holds exactly one entry per live
target, under its current box, and nothing else; a query returns, each once, exactly the live
targets whose box touches the query box. -/
theorem C26_index_coherent {E : Env P R O} (hbox : BoxOk E) (prm : Params) (fuel : Nat)
    (calls : List (Call P R)) (hc : ∀ c ∈ calls, CallOk E c) (s : St P)
    (e : run E prm fuel calls St.empty = some s) :
    Coherent E s ∧ ∀ b : Rect, b.Valid → ∃ l, query s b = some l ∧ l.Nodup ∧
      ∀ a, a ∈ l ↔ ∃ t, s.heap a = some t ∧ b.Touch (E.box t.pdf) := by
  have h := run_inv hbox (Inv.empty E) hc e
  refine ⟨h.coherent, fun b hb => ?_⟩
  obtain ⟨l, h1, h2, h3⟩ := query_ok hbox h.ok b hb
  refine ⟨l, h1, h2, fun a => ?_⟩
  rw [h3]
  constructor
  · rintro ⟨_, _, h⟩; exact h
  · rintro ⟨t, ht, h'⟩; exact ⟨(h.ok.live a).1 ⟨t, ht⟩, fun h => h, t, ht, h'⟩

/-- What the costs and the choices of a call must satisfy for it to be defined. -/
def CallCosts : Call P R → Prop
  | .predict _ _ => True
  | .correct S ch _ _ => CostsOk S ∧ ∀ r c, PickOk (ch.pick r c)

theorem step_total {E : Env P R O} (hbox : BoxOk E) (prm : Params) {c : Call P R}
    (hc : CallOk E c) (hk : CallCosts c) {s : St P} (hs : Inv E s) (hlen : s.targets.length ≤ 30) :
    ∃ F s', ∀ fuel, F ≤ fuel → step E prm fuel s c = some s' := by
  cases c with
  | predict m ord =>
    obtain ⟨s1, h1, _⟩ := predict_spec hbox prm m hc hs.ok
    exact ⟨0, s1, fun _ _ => h1⟩
  | correct S ch scan dflt =>
    obtain ⟨hf, hch, hz⟩ := hc
    obtain ⟨F, res, h⟩ := correct_total hbox hf hk.1 prm hch hk.2 hz dflt hs (by
      intro cls s1 rcid e c hcm
      obtain ⟨cls', s1', rcid', p1, p2, p3, p4, _⟩ := prepare_ok hbox hf hz hs.ok
      rw [e, Option.some.injEq, Prod.mk.injEq, Prod.mk.injEq] at p1
      obtain ⟨rfl, rfl, rfl⟩ := p1
      have : c.targets.Subperm s.targets := by
        rw [← p4]
        exact ((List.nodup_flatMap.1 p2.tnd).1 c hcm).subperm (p2.tin c hcm)
      exact this.length_le.trans hlen)
    exact ⟨F, res.1, fun fuel hfu => by simp [step, h fuel hfu]⟩

theorem step_length {E : Env P R O} (hbox : BoxOk E) {prm : Params} {fuel : Nat}
    {s s' : St P} (hs : Inv E s) {c : Call P R} (hc : CallOk E c)
    (e : step E prm fuel s c = some s') : s'.targets.length ≤ s.targets.length + c.reports := by
  cases c with
  | predict m ord =>
    obtain ⟨s1, h1, h2, h3, h4, h5⟩ := predict_spec hbox prm m hc hs.ok
    simp only [step, h1, Option.some.injEq] at e
    subst e
    rw [h5]
    exact (List.length_filter_le _ _).trans (Nat.le_add_right _ _)
  | correct S ch scan dflt =>
    obtain ⟨hf, hch, hz⟩ := hc
    simp only [step, Option.map_eq_some_iff] at e
    obtain ⟨⟨s2, reps⟩, e, rfl⟩ := e
    obtain ⟨cls, s1, rcid, new, h1, _⟩ := correct_origin hbox hf hch hz hs e
    obtain ⟨cls', s1', rcid', p1, p2, p3, p4, p5, p6, _⟩ := prepare_ok hbox hf hz hs.ok
    rw [h1.prep, Option.some.injEq, Prod.mk.injEq, Prod.mk.injEq] at p1
    obtain ⟨rfl, rfl, rfl⟩ := p1
    simp only
    rw [h1.targets, List.length_append, h1.len]
    exact Nat.add_le_add (List.length_filter_le _ _) (births_length hch.ord p6)

/-- **C26, definedness** Every history with at most 30 reports in total runs to its end without
touching a deleted target or otherwise leaving the defined behaviour.  (Beyond 30 targets in one
cluster `correct` is undefined, see `cluster_target_limit`.) -/
theorem C26_defined {E : Env P R O} (hbox : BoxOk E) (prm : Params)
    (calls : List (Call P R)) (hc : ∀ c ∈ calls, CallOk E c) (hk : ∀ c ∈ calls, CallCosts c)
    (hn : (calls.map Call.reports).sum ≤ 30) :
    ∃ F s, ∀ fuel, F ≤ fuel → run E prm fuel calls (St.empty : St P) = some s := by
  have key : ∀ (calls : List (Call P R)) (s : St P), Inv E s → (∀ c ∈ calls, CallOk E c) →
      (∀ c ∈ calls, CallCosts c) → s.targets.length + (calls.map Call.reports).sum ≤ 30 →
      ∃ F s', ∀ fuel, F ≤ fuel → run E prm fuel calls s = some s' := by
    intro calls
    induction calls with
    | nil => intro s _ _ _ _; exact ⟨0, s, fun _ _ => rfl⟩
    | cons c l ih =>
      intro s hs hc hk hn
      rw [List.map_cons, List.sum_cons] at hn
      obtain ⟨F1, s1, h1⟩ := step_total hbox prm (hc c List.mem_cons_self)
        (hk c List.mem_cons_self) hs (by omega)
      have hlen := step_length hbox hs (hc c List.mem_cons_self) (h1 F1 (le_refl _))
      obtain ⟨F2, s2, h2⟩ := ih s1
        (step_inv hbox hs (hc c List.mem_cons_self) (h1 F1 (le_refl _)))
        (fun d hd => hc d (List.mem_cons_of_mem _ hd))
        (fun d hd => hk d (List.mem_cons_of_mem _ hd)) (by omega)
      refine ⟨max F1 F2, s2, fun fuel hfu => ?_⟩
      simp only [run, h1 fuel (le_trans (le_max_left _ _) hfu)]
      exact h2 fuel (le_trans (le_max_right _ _) hfu)
  exact key calls St.empty (Inv.empty E) hc hk (by simpa [St.empty] using hn)

theorem exCalls_costs : ∀ c ∈ exCalls, CallCosts c := by
  intro c hc
  simp only [exCalls, List.mem_cons, List.not_mem_nil, or_false] at hc
  rcases hc with rfl | rfl | rfl
  · exact ⟨exS_costs, exCh_pick⟩
  · trivial
  · exact ⟨exS_costs, exCh_pick⟩

/-- The example history runs to its end. -/
theorem exRun : ∃ F s, ∀ fuel, F ≤ fuel → run exE exPrm fuel exCalls St.empty = some s :=
  C26_defined exE_box exPrm exCalls exCalls_ok exCalls_costs (by
    simp [exCalls, Call.reports, exScan])

example : ∃ s, Coherent exE s := by
  obtain ⟨F, s, h⟩ := exRun
  exact ⟨s, (C26_index_coherent exE_box exPrm F exCalls exCalls_ok s (h F (le_refl _))).1⟩

/-! ## C27 -/

/-- **C27, one call** A call gives the ids `idc, idc+1, …` to the targets it creates, moves the
counter past them, and changes no other id. -/
theorem C27_ids_call {E : Env P R O} (hbox : BoxOk E) (prm : Params) (fuel : Nat)
    (calls : List (Call P R)) (c : Call P R) (hc : ∀ d ∈ calls ++ [c], CallOk E d) (s s' : St P)
    (e : run E prm fuel calls St.empty = some s) (e' : step E prm fuel s c = some s')
    (hn : s.idc + c.reports < 2 ^ 32) :
    ∃ new : List Nat, new.Nodup ∧ new.length ≤ c.reports ∧ s'.idc = s.idc + new.length ∧
      (∀ (k : Nat) a, new[k]? = some a → ∃ t, s'.heap a = some t ∧ t.id = s.idc + k) ∧
      ∀ a ∉ new, ∀ u, s'.heap a = some u → ∃ t, s.heap a = some t ∧ t.id = u.id :=
  step_ids hbox (run_inv hbox (Inv.empty E) (fun d hd => hc d (List.mem_append_left _ hd)) e)
    (hc c (by simp)) e' hn

/-- Ids are below the counter and different for different targets. -/
structure IdsOk (s : St P) : Prop where
  lt : ∀ a t, s.heap a = some t → t.id < s.idc
  inj : ∀ a b t u, s.heap a = some t → s.heap b = some u → t.id = u.id → a = b

theorem step_idsOk {E : Env P R O} (hbox : BoxOk E) {prm : Params} {fuel : Nat}
    {s s' : St P} (hs : Inv E s) (hi : IdsOk s) {c : Call P R} (hc : CallOk E c)
    (e : step E prm fuel s c = some s') (hn : s.idc + c.reports < 2 ^ 32) :
    IdsOk s' ∧ s.idc ≤ s'.idc ∧ s'.idc ≤ s.idc + c.reports ∧
      ∀ a u, s'.heap a = some u → u.id < s.idc → ∃ t, s.heap a = some t ∧ t.id = u.id := by
  obtain ⟨new, n1, n2, n3, n4, n5⟩ := step_ids hbox hs hc e hn
  have horig : ∀ a u, s'.heap a = some u →
      (∃ k, new[k]? = some a ∧ u.id = s.idc + k) ∨
      (∃ t, s.heap a = some t ∧ t.id = u.id) := by
    intro a u hu
    by_cases ha : a ∈ new
    · obtain ⟨k, hk⟩ := List.mem_iff_getElem?.1 ha
      obtain ⟨t, ht, hid⟩ := n4 k a hk
      rw [hu] at ht
      injection ht with ht
      subst ht
      exact Or.inl ⟨k, hk, hid⟩
    · exact Or.inr (n5 a ha u hu)
  refine ⟨⟨?_, ?_⟩, by omega, by omega, ?_⟩
  · intro a u hu
    rcases horig a u hu with ⟨k, hk, hid⟩ | ⟨t, ht, hid⟩
    · have := (List.getElem?_eq_some_iff.1 hk).1; omega
    · have := hi.lt a t ht; omega
  · intro a b t u ht hu hid
    rcases horig a t ht with ⟨k, hk, h1⟩ | ⟨t', ht', h1⟩
    · rcases horig b u hu with ⟨l, hl, h2⟩ | ⟨u', hu', h2⟩
      · have : k = l := by omega
        subst this
        rw [hk] at hl
        exact Option.some.inj hl
      · have := hi.lt b u' hu'; omega
    · rcases horig b u hu with ⟨l, hl, h2⟩ | ⟨u', hu', h2⟩
      · have := hi.lt a t' ht'; omega
      · exact hi.inj a b t' u' ht' hu' (by omega)
  · intro a u hu hlt
    rcases horig a u hu with ⟨k, hk, h1⟩ | h
    · omega
    · exact h

theorem run_append {E : Env P R O} {prm : Params} {fuel : Nat} (l l' : List (Call P R)) (s : St P) :
    run E prm fuel (l ++ l') s = (run E prm fuel l s).bind (run E prm fuel l') := by
  induction l generalizing s with
  | nil => rfl
  | cons c l ih =>
    simp only [List.cons_append, run]
    cases step E prm fuel s c with
    | none => rfl
    | some s1 => exact ih s1

theorem run_ids {E : Env P R O} (hbox : BoxOk E) {prm : Params} {fuel : Nat}
    {calls : List (Call P R)} {s s' : St P} (hs : Inv E s) (hi : IdsOk s)
    (hc : ∀ c ∈ calls, CallOk E c) (e : run E prm fuel calls s = some s')
    (hn : s.idc + (calls.map Call.reports).sum < 2 ^ 32) :
    IdsOk s' ∧ s.idc ≤ s'.idc ∧ s'.idc ≤ s.idc + (calls.map Call.reports).sum ∧
      ∀ a u, s'.heap a = some u → u.id < s.idc → ∃ t, s.heap a = some t ∧ t.id = u.id := by
  induction calls generalizing s with
  | nil =>
    simp only [run, Option.some.injEq] at e
    subst e
    exact ⟨hi, le_refl _, by simp, fun a u hu _ => ⟨u, hu, rfl⟩⟩
  | cons c l ih =>
    simp only [run] at e
    rw [List.map_cons, List.sum_cons] at hn ⊢
    cases h : step E prm fuel s c with
    | none => simp [h] at e
    | some s1 =>
      simp only [h] at e
      obtain ⟨g1, g2, g3, g4⟩ := step_idsOk hbox hs hi (hc c List.mem_cons_self) h (by omega)
      obtain ⟨k1, k2, k3, k4⟩ := ih (step_inv hbox hs (hc c List.mem_cons_self) h) g1
        (fun d hd => hc d (List.mem_cons_of_mem _ hd)) e (by omega)
      refine ⟨k1, by omega, by omega, ?_⟩
      intro a u hu hlt
      obtain ⟨t, ht, hid⟩ := k4 a u hu (by omega)
      obtain ⟨t', ht', hid'⟩ := g4 a t ht (by omega)
      exact ⟨t', ht', by omega⟩

/-- **C27** In a history with fewer than 2^32 reports, an id belongs to one target only: if an id
occurs at an earlier and a later point, it is at the same address, and the target with this id has
been there at every point in between. -/
theorem C27_ids_unique {E : Env P R O} (hbox : BoxOk E) (prm : Params) (fuel : Nat)
    (calls : List (Call P R)) (hc : ∀ c ∈ calls, CallOk E c)
    (hn : (calls.map Call.reports).sum < 2 ^ 32) (i j k : Nat) (hij : i ≤ k) (hjk : k ≤ j)
    (si sk sj : St P)
    (ei : run E prm fuel (calls.take i) St.empty = some si)
    (ek : run E prm fuel (calls.take k) St.empty = some sk)
    (ej : run E prm fuel (calls.take j) St.empty = some sj)
    (a b : Nat) (t u : Tgt P) (ha : si.heap a = some t) (hb : sj.heap b = some u)
    (hid : t.id = u.id) : a = b ∧ ∃ w, sk.heap a = some w ∧ w.id = t.id := by
  have hsum : ∀ (l : List (Call P R)) (m : Nat),
      ((l.take m).map Call.reports).sum + ((l.drop m).map Call.reports).sum =
        (l.map Call.reports).sum := by
    intro l m
    rw [← List.sum_append, ← List.map_append, List.take_append_drop]
  have htake : ∀ m n, m ≤ n → calls.take n = calls.take m ++ (calls.take n).drop m := by
    intro m n h
    have : (calls.take n).take m = calls.take m := by rw [List.take_take, Nat.min_eq_left h]
    rw [← this, List.take_append_drop]
  have hok : ∀ m, ∀ c ∈ calls.take m, CallOk E c := fun m c h => hc c (List.mem_of_mem_take h)
  have hinit : IdsOk (St.empty : St P) :=
    ⟨fun a t h => by simp [St.empty] at h, fun a b t u h => by simp [St.empty] at h⟩
  have hto : ∀ m n s1 s2, m ≤ n → run E prm fuel (calls.take m) St.empty = some s1 →
      run E prm fuel (calls.take n) St.empty = some s2 → Inv E s1 ∧ IdsOk s1 ∧ s1.idc ≤ s2.idc ∧
      ∀ a u, s2.heap a = some u → u.id < s1.idc → ∃ t, s1.heap a = some t ∧ t.id = u.id := by
    intro m n s1 s2 hmn e1 e2
    have h1 := run_inv hbox (Inv.empty E) (hok m) e1
    have hs1 := hsum calls m
    have hs2 := hsum calls n
    have hs3 := hsum (calls.take n) m
    rw [List.take_take, Nat.min_eq_left hmn] at hs3
    obtain ⟨i1, i2, i3, _⟩ := run_ids hbox (Inv.empty E) hinit (hok m) e1 (by
      simp only [St.empty]; omega)
    rw [htake m n hmn, run_append, e1, Option.bind_some] at e2
    simp only [St.empty] at i3
    obtain ⟨_, k2, _, k4⟩ := run_ids hbox h1 i1
      (fun c h => hok n c (List.mem_of_mem_drop h)) e2 (by omega)
    exact ⟨h1, i1, k2, k4⟩
  obtain ⟨_, i1, i2, i3⟩ := hto i k si sk hij ei ek
  obtain ⟨_, k1, k2, k3⟩ := hto k j sk sj hjk ek ej
  have hlt := i1.lt a t ha
  obtain ⟨w, hw, hwid⟩ := k3 b u hb (by omega)
  obtain ⟨t', ht', hid'⟩ := i3 b w hw (by omega)
  have hab := i1.inj a b t t' ha ht' (by omega)
  subst hab
  exact ⟨rfl, w, hw, by omega⟩

example : ∃ F s, run exE exPrm F exCalls St.empty = some s ∧
    ∀ a b t u, s.heap a = some t → s.heap b = some u → t.id = u.id → a = b := by
  obtain ⟨F, s, h⟩ := exRun
  refine ⟨F, s, h F (le_refl _), fun a b t u ht hu hid => ?_⟩
  have e : run exE exPrm F (exCalls.take 3) St.empty = some s := h F (le_refl _)
  exact (C27_ids_unique exE_box exPrm F exCalls exCalls_ok
    (by simp [exCalls, Call.reports, exScan]) 3 3 3 (le_refl _) (le_refl _) s s s e e e a b t u ht hu
    hid).1

/-! ## C28 -/

/-- **C28, predict** After `predict` every live target is viable, and it is the prediction of a
target that was alive. -/
theorem C28_predict {E : Env P R O} (hbox : BoxOk E) (prm : Params) (fuel : Nat)
    (calls : List (Call P R)) (hc : ∀ d ∈ calls, CallOk E d) (s : St P)
    (e : run E prm fuel calls St.empty = some s) (m : Motion P) {ord : List Nat → List Nat}
    (hord : ∀ l, (ord l).Perm l) :
    ∃ s', predict E prm m ord s = some s' ∧ ∀ a, (∀ u, s'.heap a = some u →
        prm.rlim ≤ u.r ∧ E.covNorm u.pdf ≤ prm.covlim ∧ ∃ t, s.heap a = some t ∧
          u = predictTgt E m t) ∧
      ∀ t, s.heap a = some t → s'.heap a = none →
        (predictTgt E m t).r < prm.rlim ∨ prm.covlim < E.covNorm (predictTgt E m t).pdf := by
  have hs := run_inv hbox (Inv.empty E) hc e
  obtain ⟨s', h1, h2, h3, h4, h5⟩ := predict_spec hbox prm m hord hs.ok
  refine ⟨s', h1, fun a => ⟨fun u hu => ?_, fun t ht hn => ?_⟩⟩
  · rw [h4, Option.filter_eq_some_iff, Option.map_eq_some_iff] at hu
    obtain ⟨⟨t, ht, rfl⟩, hv⟩ := hu
    unfold viable at hv
    split at hv
    · cases hv
    · split at hv
      · cases hv
      · rename_i h6 h7
        exact ⟨not_lt.1 h6, not_lt.1 h7, t, ht, rfl⟩
  · rw [h4, ht, Option.map_some, Option.filter_some] at hn
    split at hn
    · cases hn
    · rename_i hv
      unfold viable at hv
      split at hv
      · rename_i h6; exact Or.inl h6
      · split at hv
        · rename_i h7; exact Or.inr h7
        · exact absurd rfl hv

/-- **C28, correct** After `correct` every target is either one that the scan did not reach, and is
untouched; or one that it did reach, and is viable; or a newborn one, with the sensor's initial
density. -/
theorem C28_correct {E : Env P R O} (hbox : BoxOk E) (prm : Params) (fuel : Nat)
    (calls : List (Call P R)) (hc : ∀ d ∈ calls, CallOk E d) (s : St P)
    (e : run E prm fuel calls St.empty = some s) (S : Sensor P R) (ch : Choices)
    (scan : List (Rep R)) (dflt : Rep R) (hok : CallOk E (.correct S ch scan dflt)) (s' : St P)
    (reps : Nat → Rep R) (e' : correct E S prm ch fuel scan dflt s = some (s', reps)) :
    (∀ a ∈ s.targets, ¬ Gated E S scan s a → s'.heap a = s.heap a) ∧
    ∀ a u, s'.heap a = some u →
      (¬ Gated E S scan s a ∧ s.heap a = some u) ∨
      (Gated E S scan s a ∧ prm.rlim ≤ u.r ∧ E.covNorm u.pdf ≤ prm.covlim ∧
        ∃ t, s.heap a = some t ∧ u.id = t.id) ∨
      (u.la = 'i' ∧ ∃ j < scan.length, u.pdf = S.init (reps j).val ∧ u.r ≤ prm.rBmax) := by
  have hs := run_inv hbox (Inv.empty E) hc e
  obtain ⟨hf, hch, hz⟩ := hok
  obtain ⟨cls, s1, rcid, new, h1, h2, h3, h4⟩ := correct_origin hbox hf hch hz hs e'
  refine ⟨fun a ha hg => h3 a (fun hn => ?_) hg, fun a u hu => ?_⟩
  · rcases h2 a hn with h | h
    · exact h ha
    · exact hg h
  · by_cases hn : a ∈ new
    · obtain ⟨k, hk⟩ := List.mem_iff_getElem?.1 hn
      obtain ⟨j, x, hjx, hh⟩ := h1.new_born hk
      obtain ⟨cls', s1', rcid', p1, p2, p3, p4, p5, p6, _⟩ := prepare_ok hbox hf hz hs.ok
      rw [h1.prep, Option.some.injEq, Prod.mk.injEq, Prod.mk.injEq] at p1
      obtain ⟨rfl, rfl, rfl⟩ := p1
      rw [hu] at hh
      injection hh with hh
      subst hh
      exact Or.inr (Or.inr ⟨rfl, j, (births_mem hch.ord p6 (List.mem_of_getElem? hjx)).1, rfl,
        min_le_right _ _⟩)
    · by_cases hg : Gated E S scan s a
      · obtain ⟨hv, t, _, _, _, ht, hid, _⟩ := h4 a hn hg u hu
        unfold viable at hv
        split at hv
        · cases hv
        · split at hv
          · cases hv
          · rename_i h6 h7
            exact Or.inr (Or.inl ⟨hg, not_lt.1 h6, not_lt.1 h7, t, ht, hid⟩)
      · rw [h3 a hn hg] at hu; exact Or.inl ⟨hg, hu⟩

example : ∃ F s s', run exE exPrm F exCalls St.empty = some s ∧ predict exE exPrm exM id s = some s' := by
  obtain ⟨F, s, h⟩ := exRun
  obtain ⟨s', h', _⟩ := C28_predict exE_box exPrm F exCalls exCalls_ok s (h F (le_refl _)) exM
    (ord := id) (fun l => List.Perm.refl _)
  exact ⟨F, s, s', h F (le_refl _), h'⟩

example : ∃ F s1 s reps, run exE exPrm F (exCalls.take 2) St.empty = some s1 ∧
    correct exE exS exPrm exCh F exScan ⟨0, none, 0⟩ s1 = some (s, reps) := by
  obtain ⟨F, s, h⟩ := exRun
  have h := h F (le_refl _)
  have e : exCalls = exCalls.take 2 ++ [.correct exS exCh exScan ⟨0, none, 0⟩] := rfl
  rw [e, run_append, Option.bind_eq_some_iff] at h
  obtain ⟨s1, h1, h2⟩ := h
  simp only [run, step] at h2
  cases hc : correct exE exS exPrm exCh F exScan ⟨0, none, 0⟩ s1 with
  | none => simp [hc] at h2
  | some x => exact ⟨F, s1, x.1, x.2, h1, hc⟩

end Verif.Tracker
