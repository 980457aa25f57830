import Verif.App.Model
import Verif.Tracker.Props4

/-!
# C104: one coroutine that awaits its calls uses the tracker as if it called it directly
-/

namespace Verif.App

open Verif.Tracker
open Verif.Cluster (Cl)

variable {C σ τ V : Type}

/-! ## Calling the tracker directly -/

/-- A call makes steps on its own.  Specification. -/
inductive Runs (M : Machine C σ τ V) (x : τ) (s : σ) : τ → σ → Prop
  | refl : Runs M x s x s
  | tail {y y' : τ} {s1 s2 : σ} (h : Runs M x s y s1) (hs : M.step y s1 = some (s2, .inl y')) :
      Runs M x s y' s2

/-- A call made on its own returns `v`.  Specification. -/
def Returns (M : Machine C σ τ V) (x : τ) (s s' : σ) (v : V) : Prop :=
  ∃ y s1, Runs M x s y s1 ∧ M.step y s1 = some (s', .inr v)

/-- A call made on its own runs into undefined behaviour.  Specification. -/
def Fails (M : Machine C σ τ V) (x : τ) (s : σ) : Prop :=
  ∃ y s1, Runs M x s y s1 ∧ M.step y s1 = none

/-- The program makes its calls directly, one after the other, and has received the results `h`.
Specification. -/
inductive Direct (M : Machine C σ τ V) (p : Prog C V) (s0 : σ) : List (Option V) → σ → Prop
  | nil : Direct M p s0 [] s0
  | snoc {h : List (Option V)} {s s' : σ} {c : C} {v : V} (hd : Direct M p s0 h s)
      (hc : p h = some c) (hr : Returns M (M.start c) s s' v) : Direct M p s0 (h ++ [some v]) s'

/-! ## Invariants of the pool -/

/-- Numbers of the calls that are queued or running. -/
def App.active (A : App C σ τ V) : List Nat := A.queue.map (·.1) ++ A.running.map (·.1)

/-- The queue holds the last calls, in the order in which they were made; every earlier call is in a
thread or has returned. -/
structure Pool (limit : Nat) (A : App C σ τ V) : Prop where
  threads : A.running.length ≤ limit
  short : A.queue.length ≤ A.count
  fifo : A.queue.map (·.1) = List.range' (A.count - A.queue.length) A.queue.length
  once : (A.running.map (·.1)).Nodup
  begun : ∀ n, n < A.count - A.queue.length ↔ n ∈ A.running.map (·.1) ∨ (A.result n).isSome
  excl : ∀ n ∈ A.running.map (·.1), A.result n = none
  wait : ∀ t ∈ A.tasks, ∀ n, t.wait = some n → n < A.count

variable {M : Machine C σ τ V} {prog : Nat → Prog C V} {limit : Nat} {giveUp : Bool}

theorem Pool.step {A B : App C σ τ V} (h : Pool limit A) (hs : Step M prog limit giveUp A B) :
    Pool limit B := by
  obtain ⟨h1, h2, h3, h4, h5, h6, h7⟩ := h
  cases hs with
  | @submit i t c ht hw hc =>
    refine ⟨h1, by simp; omega, ?_, h4, ?_, h6, ?_⟩
    · simp only [List.map_append, List.map_cons, List.map_nil, List.length_append, List.length_cons,
        List.length_nil, h3]
      rw [show A.count + 1 - (A.queue.length + (0 + 1)) = A.count - A.queue.length by omega,
        List.range'_append_1.symm]
      rw [show A.count - A.queue.length + A.queue.length = A.count by omega]
      simp
    · intro n
      simp only [List.length_append, List.length_cons, List.length_nil]
      rw [show A.count + 1 - (A.queue.length + (0 + 1)) = A.count - A.queue.length by omega]
      exact h5 n
    · intro t' ht' n hn
      show n < A.count + 1
      rcases List.mem_or_eq_of_mem_set ht' with h | rfl
      · exact (h7 t' h n hn).trans (Nat.lt_succ_self _)
      · simp only [Option.some.injEq] at hn; omega
  | @take n c q hq hl =>
    rw [hq] at h2 h3 h5
    simp only [List.length_cons, List.map_cons, List.range'_succ, List.cons.injEq] at h2 h3 h5
    obtain ⟨hn, h3⟩ := h3
    have hnr : n ∉ A.running.map (·.1) := fun hm => by
      have := (h5 n).2 (Or.inl hm); omega
    have hnn : A.result n = none := by
      by_contra hne
      have := (h5 n).2 (Or.inr (Option.isSome_iff_ne_none.2 hne)); omega
    have e1 : A.count - q.length = A.count - (q.length + 1) + 1 := by omega
    refine ⟨by simp; omega, by show q.length ≤ A.count; omega, ?_, ?_, ?_, ?_, h7⟩
    · show q.map (·.1) = _
      rw [h3, e1]
    · show ((A.running ++ [(n, M.start c)]).map (·.1)).Nodup
      rw [List.map_append, List.nodup_append]
      refine ⟨h4, by simp, ?_⟩
      intro a ha b hb
      simp only [List.map_cons, List.map_nil, List.mem_singleton] at hb
      rintro rfl
      exact hnr (hb ▸ ha)
    · intro k
      show k < A.count - q.length ↔ k ∈ (A.running ++ [(n, M.start c)]).map (·.1) ∨ _
      simp only [List.map_append, List.map_cons, List.map_nil, List.mem_append, List.mem_singleton]
      rw [e1, Nat.lt_succ_iff_lt_or_eq, h5 k, ← hn]
      tauto
    · intro k hk
      simp only [List.map_append, List.map_cons, List.map_nil, List.mem_append,
        List.mem_singleton] at hk
      rcases hk with hk | rfl
      · exact h6 k hk
      · exact hnn
  | @work s s' n l l' x x' hsh hr hx =>
    rw [hr] at h1 h4 h5 h6
    refine ⟨by simpa using h1, h2, h3, by simpa using h4, by simpa using h5, by simpa using h6, h7⟩
  | @finish s s' n l l' x v hsh hr hx =>
    rw [hr] at h1 h4 h5 h6
    simp only [List.map_append, List.map_cons, List.mem_append, List.mem_cons, List.length_append,
      List.length_cons] at h1 h4 h5 h6
    have hnd : ∀ k, k ∈ l.map (·.1) ∨ k ∈ l'.map (·.1) → k ≠ n := by
      rintro k hk rfl
      rw [List.nodup_append, List.nodup_cons] at h4
      rcases hk with hk | hk
      · exact h4.2.2 _ hk _ (List.mem_cons_self ..) rfl
      · exact h4.2.1.1 hk
    refine ⟨by simp; omega, h2, h3, ?_, ?_, ?_, h7⟩
    · show ((l ++ l').map (·.1)).Nodup
      rw [List.map_append]
      exact h4.sublist (List.Sublist.append_left (List.sublist_cons_self _ _) _)
    · intro k
      show k < A.count - A.queue.length ↔ k ∈ (l ++ l').map (·.1) ∨
        (if k = n then some v else A.result k).isSome
      rw [h5 k, List.map_append, List.mem_append]
      by_cases hk : k = n
      · simp [hk]
      · simp only [hk, if_false, false_or]
    · intro k hk
      show (if k = n then some v else A.result k) = none
      simp only [List.map_append, List.mem_append] at hk
      rw [if_neg (hnd k hk)]
      exact h6 k (by tauto)
  | @crash s n l l' x hsh hr hx => exact ⟨h1, h2, h3, h4, h5, h6, h7⟩
  | @resume i n t v ht hw hv =>
    refine ⟨h1, h2, h3, h4, h5, h6, ?_⟩
    intro t' ht' k hk
    rcases List.mem_or_eq_of_mem_set ht' with h | rfl
    · exact h7 t' h k hk
    · cases hk
  | @giveUp i n t hg ht hw =>
    refine ⟨h1, h2, h3, h4, h5, h6, ?_⟩
    intro t' ht' k hk
    rcases List.mem_or_eq_of_mem_set ht' with h | rfl
    · exact h7 t' h k hk
    · cases hk

theorem Pool.init (s : σ) (k : Nat) : Pool limit (App.init s k : App C σ τ V) := by
  refine ⟨by simp [App.init], by simp [App.init], by simp [App.init], by simp [App.init],
    by simp [App.init], by simp [App.init], ?_⟩
  intro t ht n hn
  rw [List.eq_of_mem_replicate ht] at hn
  cases hn

theorem Pool.reach {s : σ} {k : Nat} {A : App C σ τ V}
    (h : Reach M prog limit giveUp (App.init s k) A) : Pool limit A := by
  induction h with
  | refl => exact Pool.init s k
  | tail _ hs ih => exact ih.step hs

/-- **C104, the pool** For any coroutines and in every order of events there are at most three calls in
the tracker at a time; the queue holds the last calls in the order in which they were made, so calls
begin in that order; every earlier call is in exactly one thread or has returned, so none is lost or made
twice. -/
theorem C104_pool {s : σ} {k : Nat} {A : App C σ τ V}
    (h : Reach M prog 3 giveUp (App.init s k) A) :
    A.running.length ≤ 3 ∧
    A.queue.map (·.1) = List.range' (A.count - A.queue.length) A.queue.length ∧
    (A.running.map (·.1)).Nodup ∧
    ∀ n < A.count, (n ∈ A.queue.map (·.1) ∧ n ∉ A.running.map (·.1) ∧ A.result n = none) ∨
      (n ∉ A.queue.map (·.1) ∧ n ∈ A.running.map (·.1) ∧ A.result n = none) ∨
      (n ∉ A.queue.map (·.1) ∧ n ∉ A.running.map (·.1) ∧ (A.result n).isSome) := by
  obtain ⟨h1, h2, h3, h4, h5, h6, _⟩ := Pool.reach h
  refine ⟨h1, h3, h4, fun n hn => ?_⟩
  have hq : n ∈ A.queue.map (·.1) ↔ ¬ n < A.count - A.queue.length := by
    rw [h3, List.mem_range'_1]; omega
  rw [hq]
  by_cases hb : n < A.count - A.queue.length
  · rcases (h5 n).1 hb with h | h
    · exact Or.inr (Or.inl ⟨not_not.2 hb, h, h6 n h⟩)
    · refine Or.inr (Or.inr ⟨not_not.2 hb, fun hm => ?_, h⟩)
      rw [h6 n hm] at h; cases h
  · have hne := fun h => hb ((h5 n).2 h)
    refine Or.inl ⟨hb, fun hm => hne (Or.inl hm), ?_⟩
    by_contra hne'
    exact hne (Or.inr (Option.isSome_iff_ne_none.2 hne'))

/-- Every call that is queued or running is awaited. -/
def Awaited (A : App C σ τ V) : Prop := ∀ n ∈ A.active, n ∈ A.tasks.filterMap (·.wait)

theorem mem_waits_set {l : List (Task V)} {i : Nat} {t t' : Task V} (ht : l[i]? = some t) {n : Nat}
    (hn : n ∈ l.filterMap (·.wait)) (hne : t.wait ≠ some n) :
    n ∈ (l.set i t').filterMap (·.wait) := by
  obtain ⟨u, hu, hw⟩ := List.mem_filterMap.1 hn
  obtain ⟨j, hj⟩ := List.mem_iff_getElem?.1 hu
  refine List.mem_filterMap.2 ⟨u, List.mem_iff_getElem?.2 ⟨j, ?_⟩, hw⟩
  have : i ≠ j := by
    rintro rfl
    rw [ht] at hj
    obtain rfl := Option.some.inj hj
    exact hne hw
  rw [List.getElem?_set_ne this, hj]

theorem Awaited.step {A B : App C σ τ V} (hp : Pool limit A) (h : Awaited A)
    (hs : Step M prog limit false A B) : Awaited B := by
  unfold Awaited App.active at *
  cases hs with
  | @submit i t c ht hw hc =>
    intro n hn
    simp only [List.map_append, List.map_cons, List.map_nil, List.mem_append,
      List.mem_singleton] at hn h
    have hi := (List.getElem?_eq_some_iff.1 ht).1
    by_cases hk : n = A.count
    · subst hk
      exact List.mem_filterMap.2 ⟨_, List.mem_set hi _, rfl⟩
    · exact mem_waits_set ht (h n (by tauto)) (by rw [hw]; simp)
  | @take n c q hq hl =>
    intro k hk
    apply h
    rw [hq]
    simp only [List.map_append, List.map_cons, List.map_nil, List.mem_append,
      List.mem_singleton, List.mem_cons] at hk ⊢
    tauto
  | @work s s' n l l' x x' hsh hr hx =>
    intro k hk
    apply h
    rw [hr]
    simpa using hk
  | @finish s s' n l l' x v hsh hr hx =>
    intro k hk
    apply h
    rw [hr]
    simp only [List.map_append, List.map_cons, List.mem_append, List.mem_cons] at hk ⊢
    tauto
  | @crash s n l l' x hsh hr hx => exact h
  | @resume i n t v ht hw hv =>
    intro k hk
    refine mem_waits_set ht (h k hk) ?_
    rw [hw]
    intro e
    obtain rfl := Option.some.inj e
    have hsome : (A.result n).isSome := by rw [hv]; rfl
    rcases List.mem_append.1 hk with hq | hr
    · have hlt := (hp.begun n).2 (Or.inr hsome)
      have hq' : n ∈ A.queue.map (·.1) := hq
      rw [hp.fifo, List.mem_range'_1] at hq'
      omega
    · rw [hp.excl n hr] at hv; cases hv
  | @giveUp i n t hg ht hw => cases hg

theorem tasks_length {s : σ} {k : Nat} {A : App C σ τ V}
    (h : Reach M prog limit giveUp (App.init s k) A) : A.tasks.length = k := by
  induction h with
  | refl => simp [App.init]
  | tail _ hs ih => cases hs <;> simpa using ih

/-- **C104, overlap** As long as no wait is given up, `k` coroutines have at most `k` calls queued or
running. -/
theorem C104_overlap {s : σ} {k : Nat} {A : App C σ τ V}
    (h : Reach M prog 3 false (App.init s k) A) : A.queue.length + A.running.length ≤ k := by
  have hw : Awaited A := by
    induction h with
    | refl => intro n hn; simp [App.init, App.active] at hn
    | tail h' hs ih => exact ih.step (Pool.reach h') hs
  have hp := Pool.reach h
  have hnd : A.active.Nodup := by
    rw [App.active, List.nodup_append]
    refine ⟨by rw [hp.fifo]; exact List.nodup_range', hp.once, ?_⟩
    rintro a ha b hb rfl
    rw [hp.fifo, List.mem_range'_1] at ha
    have := (hp.begun a).2 (Or.inl hb)
    omega
  have h1 := (List.subperm_of_subset hnd hw).length_le
  have h2 := List.length_filterMap_le (fun t : Task V => t.wait) A.tasks
  rw [tasks_length h] at h2
  simp only [App.active, List.length_append, List.length_map] at h1
  omega

/-- **C104, progress** The application never hangs: if no transition is possible, the tracker has run into
undefined behaviour or every coroutine has ended and nothing is queued or running. -/
theorem C104_progress {s s1 : σ} {k : Nat} {A : App C σ τ V}
    (h : Reach M prog 3 giveUp (App.init s k) A) (hs : A.shared = some s1)
    (hstuck : ∀ B, ¬ Step M prog 3 giveUp A B) :
    A.queue = [] ∧ A.running = [] ∧
      ∀ i t, A.tasks[i]? = some t → t.wait = none ∧ prog i t.hist = none := by
  have hp := Pool.reach h
  have hr : A.running = [] := by
    match hr : A.running with
    | [] => rfl
    | (n, x) :: l =>
      exfalso
      match hx : M.step x s1 with
      | none => exact hstuck _ (Step.crash (l := []) hs hr hx)
      | some (s2, .inl x') => exact hstuck _ (Step.work (l := []) hs hr hx)
      | some (s2, .inr v) => exact hstuck _ (Step.finish (l := []) hs hr hx)
  have hq : A.queue = [] := by
    match hq : A.queue with
    | [] => rfl
    | (n, c) :: q => exact absurd (Step.take hq (by rw [hr]; simp)) (hstuck _)
  refine ⟨hq, hr, fun i t ht => ?_⟩
  have hw : t.wait = none := by
    match hw : t.wait with
    | none => rfl
    | some n =>
      exfalso
      have hn := hp.wait t (List.mem_of_getElem? ht) n hw
      have := (hp.begun n).1 (by rw [hq]; simpa using hn)
      rw [hr] at this
      simp only [List.map_nil, List.not_mem_nil, false_or] at this
      obtain ⟨v, hv⟩ := Option.isSome_iff_exists.1 this
      exact hstuck _ (Step.resume ht hw hv)
  refine ⟨hw, ?_⟩
  match hc : prog i t.hist with
  | none => rfl
  | some c => exact absurd (Step.submit ht hw hc) (hstuck _)

/-! ## One coroutine -/

/-- Where a single coroutine is. -/
inductive Single (M : Machine C σ τ V) (p : Prog C V) (s0 : σ) : App C σ τ V → Prop
  | idle {A : App C σ τ V} {h : List (Option V)} {s : σ} (ht : A.tasks = [⟨h, none⟩])
      (hq : A.queue = []) (hr : A.running = []) (hs : A.shared = some s) (hd : Direct M p s0 h s) :
      Single M p s0 A
  | queued {A : App C σ τ V} {h : List (Option V)} {s : σ} {n : Nat} {c : C}
      (ht : A.tasks = [⟨h, some n⟩]) (hq : A.queue = [(n, c)]) (hr : A.running = [])
      (hs : A.shared = some s) (hd : Direct M p s0 h s) (hc : p h = some c) : Single M p s0 A
  | running {A : App C σ τ V} {h : List (Option V)} {s s' : σ} {n : Nat} {c : C} {x : τ}
      (ht : A.tasks = [⟨h, some n⟩]) (hq : A.queue = []) (hr : A.running = [(n, x)])
      (hs : A.shared = some s') (hd : Direct M p s0 h s) (hc : p h = some c)
      (hx : Runs M (M.start c) s x s') : Single M p s0 A
  | failed {A : App C σ τ V} {h : List (Option V)} {s : σ} {n : Nat} {c : C} {x : τ}
      (ht : A.tasks = [⟨h, some n⟩]) (hq : A.queue = []) (hr : A.running = [(n, x)])
      (hs : A.shared = none) (hd : Direct M p s0 h s) (hc : p h = some c)
      (hx : Fails M (M.start c) s) : Single M p s0 A
  | returned {A : App C σ τ V} {h : List (Option V)} {s s' : σ} {n : Nat} {c : C} {v : V}
      (ht : A.tasks = [⟨h, some n⟩]) (hq : A.queue = []) (hr : A.running = [])
      (hs : A.shared = some s') (hd : Direct M p s0 h s) (hc : p h = some c)
      (hx : Returns M (M.start c) s s' v) (hv : A.result n = some v) : Single M p s0 A

theorem single_mem {t u : Task V} {i : Nat} (h : [u][i]? = some t) : i = 0 ∧ u = t := by
  cases i with
  | zero => exact ⟨rfl, by simpa using h⟩
  | succ i => simp at h

theorem one_split {α : Type} {a b : α} {l l' : List α} (h : [a] = l ++ b :: l') :
    l = [] ∧ l' = [] ∧ a = b := by
  cases l with
  | nil => simp at h; exact ⟨rfl, h.2, h.1⟩
  | cons c l => simp at h

theorem Single.step {p : Prog C V} {s0 : σ} {A B : App C σ τ V} (hpool : Pool limit A)
    (h : Single M p s0 A) (hp : prog 0 = p) (hs : Step M prog limit false A B) :
    Single M p s0 B := by
  subst hp
  cases hs with
  | @submit i t c ht hw hc =>
    cases h with
    | idle h1 h2 h3 h4 h5 =>
      rw [h1] at ht
      obtain ⟨rfl, rfl⟩ := single_mem ht
      exact .queued (n := A.count) (by simp [h1]) (by simp [h2]) h3 h4 h5 hc
    | queued h1 | running h1 | failed h1 | returned h1 =>
      rw [h1] at ht
      obtain ⟨rfl, rfl⟩ := single_mem ht
      cases hw
  | @take n c q hq hl =>
    cases h with
    | queued h1 h2 h3 h4 h5 h6 =>
      rw [h2] at hq
      simp only [List.cons.injEq, Prod.mk.injEq] at hq
      obtain ⟨⟨rfl, rfl⟩, rfl⟩ := hq
      exact .running h1 rfl (by simp [h3]) h4 h5 h6 .refl
    | idle h1 h2 | running h1 h2 | failed h1 h2 | returned h1 h2 =>
      rw [h2] at hq; cases hq
  | @work s s' n l l' x x' hsh hr hx =>
    cases h with
    | running h1 h2 h3 h4 h5 h6 h7 =>
      rw [h3] at hr
      obtain ⟨rfl, rfl, e⟩ := one_split hr
      simp only [Prod.mk.injEq] at e
      obtain ⟨rfl, rfl⟩ := e
      rw [h4] at hsh
      obtain rfl := Option.some.inj hsh
      exact .running h1 h2 rfl rfl h5 h6 (h7.tail hx)
    | idle h1 h2 h3 | queued h1 h2 h3 | returned h1 h2 h3 => rw [h3] at hr; simp at hr
    | failed h1 h2 h3 h4 => rw [h4] at hsh; cases hsh
  | @finish s s' n l l' x v hsh hr hx =>
    cases h with
    | running h1 h2 h3 h4 h5 h6 h7 =>
      rw [h3] at hr
      obtain ⟨rfl, rfl, e⟩ := one_split hr
      simp only [Prod.mk.injEq] at e
      obtain ⟨rfl, rfl⟩ := e
      rw [h4] at hsh
      obtain rfl := Option.some.inj hsh
      exact .returned h1 h2 rfl rfl h5 h6 ⟨_, _, h7, hx⟩ (if_pos rfl)
    | idle h1 h2 h3 | queued h1 h2 h3 | returned h1 h2 h3 => rw [h3] at hr; simp at hr
    | failed h1 h2 h3 h4 => rw [h4] at hsh; cases hsh
  | @crash s n l l' x hsh hr hx =>
    cases h with
    | running h1 h2 h3 h4 h5 h6 h7 =>
      rw [h3] at hr
      obtain ⟨rfl, rfl, e⟩ := one_split hr
      simp only [Prod.mk.injEq] at e
      obtain ⟨rfl, rfl⟩ := e
      rw [h4] at hsh
      obtain rfl := Option.some.inj hsh
      exact .failed h1 h2 h3 rfl h5 h6 ⟨_, _, h7, hx⟩
    | idle h1 h2 h3 | queued h1 h2 h3 | returned h1 h2 h3 => rw [h3] at hr; simp at hr
    | failed h1 h2 h3 h4 => rw [h4] at hsh; cases hsh
  | @resume i n t v ht hw hv =>
    have hno : n ∈ A.active → False := by
      intro hm
      rcases List.mem_append.1 hm with hq | hr
      · have hlt := (hpool.begun n).2 (Or.inr (by rw [hv]; rfl))
        rw [hpool.fifo, List.mem_range'_1] at hq
        omega
      · rw [hpool.excl n hr] at hv; cases hv
    cases h with
    | returned h1 h2 h3 h4 h5 h6 h7 h8 =>
      rw [h1] at ht
      obtain ⟨rfl, rfl⟩ := single_mem ht
      obtain rfl := Option.some.inj hw
      rw [h8] at hv
      obtain rfl := Option.some.inj hv
      exact .idle (by simp [h1]) h2 h3 h4 (h5.snoc h6 h7)
    | idle h1 =>
      rw [h1] at ht
      obtain ⟨rfl, rfl⟩ := single_mem ht
      cases hw
    | queued h1 h2 h3 | running h1 h2 h3 | failed h1 h2 h3 =>
      rw [h1] at ht
      obtain ⟨rfl, rfl⟩ := single_mem ht
      obtain rfl := Option.some.inj hw
      exact (hno (by simp [App.active, h2, h3])).elim
  | @giveUp i n t hg ht hw => cases hg

theorem Single.reach {s0 : σ} {A : App C σ τ V}
    (h : Reach M prog limit false (App.init s0 1) A) : Single M (prog 0) s0 A := by
  induction h with
  | refl => exact .idle (h := []) rfl rfl rfl rfl .nil
  | tail h' hs ih => exact ih.step (Pool.reach h') rfl hs

/-- **C104, one coroutine** A single coroutine that awaits its calls: at most one call is queued or
running at any time; whenever the coroutine has control, the results it has received and the state of the
tracker are those of the same program making the calls directly; undefined behaviour happens only if the
direct program runs into it. -/
theorem C104_single {s0 : σ} {A : App C σ τ V} (h : Reach M prog 3 false (App.init s0 1) A) :
    A.queue.length + A.running.length ≤ 1 ∧ ∃ t, A.tasks = [t] ∧
      (t.wait = none → ∃ s, A.shared = some s ∧ Direct M (prog 0) s0 t.hist s ∧
        A.queue = [] ∧ A.running = []) ∧
      (A.shared = none → ∃ s c, Direct M (prog 0) s0 t.hist s ∧ prog 0 t.hist = some c ∧
        Fails M (M.start c) s) := by
  refine ⟨C104_overlap h, ?_⟩
  cases Single.reach h with
  | idle h1 h2 h3 h4 h5 => exact ⟨_, h1, fun _ => ⟨_, h4, h5, h2, h3⟩, fun e => by rw [h4] at e; cases e⟩
  | queued h1 h2 h3 h4 h5 h6 => exact ⟨_, h1, fun e => (by cases e), fun e => (by rw [h4] at e; cases e)⟩
  | running h1 h2 h3 h4 h5 h6 h7 => exact ⟨_, h1, fun e => (by cases e), fun e => (by rw [h4] at e; cases e)⟩
  | failed h1 h2 h3 h4 h5 h6 h7 => exact ⟨_, h1, fun e => (by cases e), fun _ => ⟨_, _, h5, h6, h7⟩⟩
  | returned h1 h2 h3 h4 h5 h6 h7 => exact ⟨_, h1, fun e => (by cases e), fun e => (by rw [h4] at e; cases e)⟩

/-! ## The calls of a tracker -/

theorem runs_head {x y : τ} {s t : σ} (h : Runs M x s y t) :
    (y = x ∧ t = s) ∨ ∃ x' s1, M.step x s = some (s1, .inl x') ∧ Runs M x' s1 y t := by
  induction h with
  | refl => exact Or.inl ⟨rfl, rfl⟩
  | tail _ hs ih =>
    rcases ih with ⟨rfl, rfl⟩ | ⟨x', s1, h1, h2⟩
    · exact Or.inr ⟨_, _, hs, .refl⟩
    · exact Or.inr ⟨x', s1, h1, h2.tail hs⟩

theorem Runs.head {x x' y : τ} {s s1 t : σ} (h : M.step x s = some (s1, .inl x'))
    (hr : Runs M x' s1 y t) : Runs M x s y t := by
  induction hr with
  | refl => exact Runs.refl.tail h
  | tail _ hs ih => exact ih.tail hs

theorem returns_inl {x x' : τ} {s s1 t : σ} {v : V} (h : M.step x s = some (s1, .inl x')) :
    Returns M x s t v ↔ Returns M x' s1 t v := by
  constructor
  · rintro ⟨y, s2, hr, hs⟩
    rcases runs_head hr with ⟨rfl, rfl⟩ | ⟨x2, s3, h1, h2⟩
    · rw [h] at hs; simp at hs
    · rw [h] at h1
      simp only [Option.some.injEq, Prod.mk.injEq, Sum.inl.injEq] at h1
      obtain ⟨rfl, rfl⟩ := h1
      exact ⟨y, s2, h2, hs⟩
  · rintro ⟨y, s2, hr, hs⟩
    exact ⟨y, s2, hr.head h, hs⟩

theorem returns_inr {x : τ} {s s1 t : σ} {v w : V} (h : M.step x s = some (s1, .inr w)) :
    Returns M x s t v ↔ t = s1 ∧ v = w := by
  constructor
  · rintro ⟨y, s2, hr, hs⟩
    rcases runs_head hr with ⟨rfl, rfl⟩ | ⟨x2, s3, h1, h2⟩
    · rw [h] at hs
      simp only [Option.some.injEq, Prod.mk.injEq, Sum.inr.injEq] at hs
      exact ⟨hs.1.symm, hs.2.symm⟩
    · rw [h] at h1; simp at h1
  · rintro ⟨rfl, rfl⟩
    exact ⟨x, s, .refl, h⟩

theorem returns_none {x : τ} {s t : σ} {v : V} (h : M.step x s = none) : ¬ Returns M x s t v := by
  rintro ⟨y, s2, hr, hs⟩
  rcases runs_head hr with ⟨rfl, rfl⟩ | ⟨x2, s3, h1, h2⟩
  · rw [h] at hs; cases hs
  · rw [h] at h1; cases h1

theorem fails_inl {x x' : τ} {s s1 : σ} (h : M.step x s = some (s1, .inl x')) :
    Fails M x s ↔ Fails M x' s1 := by
  constructor
  · rintro ⟨y, s2, hr, hs⟩
    rcases runs_head hr with ⟨rfl, rfl⟩ | ⟨x2, s3, h1, h2⟩
    · rw [h] at hs; simp at hs
    · rw [h] at h1
      simp only [Option.some.injEq, Prod.mk.injEq, Sum.inl.injEq] at h1
      obtain ⟨rfl, rfl⟩ := h1
      exact ⟨y, s2, h2, hs⟩
  · rintro ⟨y, s2, hr, hs⟩
    exact ⟨y, s2, hr.head h, hs⟩

theorem fails_inr {x : τ} {s s1 : σ} {w : V} (h : M.step x s = some (s1, .inr w)) :
    ¬ Fails M x s := by
  rintro ⟨y, s2, hr, hs⟩
  rcases runs_head hr with ⟨rfl, rfl⟩ | ⟨x2, s3, h1, h2⟩
  · rw [h] at hs; cases hs
  · rw [h] at h1; simp at h1

theorem fails_none {x : τ} {s : σ} (h : M.step x s = none) : Fails M x s := ⟨x, s, .refl, h⟩

section
variable {P R O : Type} {E : Env P R O} {prm : Params} {fuel : Nat}

/-- The rest of `correct` from the parallel loop on. -/
theorem loop_spec (S : Sensor P R) (ch : Choices) (n : Nat) (cls : List Cl) (l : List Nat)
    (reps : Nat → Rep R) (pc : Nat → Nat) (s : St P) :
    match clRun E S prm ch.pick fuel ch.wt cls l ⟨s, reps, pc⟩ with
    | none => Fails (bindings E prm fuel) (.loop S ch n cls l reps pc) s ∧
        ∀ t v, ¬ Returns (bindings E prm fuel) (.loop S ch n cls l reps pc) s t v
    | some g => match birth E S prm ch.alloc ch.ord cls n g.reps g.st with
      | none => Fails (bindings E prm fuel) (.loop S ch n cls l reps pc) s ∧
          ∀ t v, ¬ Returns (bindings E prm fuel) (.loop S ch n cls l reps pc) s t v
      | some s' => ¬ Fails (bindings E prm fuel) (.loop S ch n cls l reps pc) s ∧
          ∀ t v, Returns (bindings E prm fuel) (.loop S ch n cls l reps pc) s t v ↔
            t = s' ∧ v = .scan ((List.range n).map g.reps) := by
  induction l generalizing reps pc s with
  | nil =>
    simp only [clRun]
    cases hb : birth E S prm ch.alloc ch.ord cls n reps s with
    | none =>
      have : (bindings E prm fuel).step (.loop S ch n cls [] reps pc) s = none := by
        simp [bindings, threadStep, hb]
      exact ⟨fails_none this, fun t v => returns_none this⟩
    | some s' =>
      have : (bindings E prm fuel).step (.loop S ch n cls [] reps pc) s =
          some (s', .inr (.scan ((List.range n).map reps))) := by
        simp [bindings, threadStep, hb]
      exact ⟨fails_inr this, fun t v => returns_inr this⟩
  | cons i l ih =>
    simp only [clRun]
    cases hc : clStep E S prm ch.pick fuel ch.wt cls i ⟨s, reps, pc⟩ with
    | none =>
      have : (bindings E prm fuel).step (.loop S ch n cls (i :: l) reps pc) s = none := by
        simp [bindings, threadStep, hc]
      exact ⟨fails_none this, fun t v => returns_none this⟩
    | some g =>
      have : (bindings E prm fuel).step (.loop S ch n cls (i :: l) reps pc) s =
          some (g.st, .inl (.loop S ch n cls l g.reps g.pc)) := by
        simp [bindings, threadStep, hc]
      simp only [fails_inl this, returns_inl this]
      exact ih g.reps g.pc g.st

/-- What a call of the tracker returns and the state after it.  Specification. -/
def Answers (E : Env P R O) (prm : Params) (fuel : Nat) (s t : St P) (v : AVal P R) :
    ACall P R → Prop
  | .tracker (.predict m ord) => predict E prm m ord s = some t ∧ v = .none
  | .tracker (.correct S ch scan dflt) => ∃ reps, correct E S prm ch fuel scan dflt s = some (t, reps) ∧
      v = .scan ((List.range scan.length).map reps)
  | .getTargets => t = s ∧ ∃ l, getAll s = some l ∧ v = .targets l
  | .enof none => t = s ∧ ∃ x, enofTargets s = some x ∧ v = .number x
  | .enof (some b) => t = s ∧ ∃ x, enofTargetsIn s b = some x ∧ v = .number x
  | .nof none rlim => t = s ∧ ∃ n, nofTargets s rlim = some n ∧ v = .count n
  | .nof (some b) rlim => t = s ∧ ∃ n, nofTargetsIn s b rlim = some n ∧ v = .count n

/-- A call made on its own returns what the tracker returns. -/
theorem returns_iff (c : ACall P R) (s t : St P) (v : AVal P R) :
    Returns (bindings E prm fuel) (.fresh c) s t v ↔ Answers E prm fuel s t v c := by
  have key : ∀ (c : ACall P R) {α : Type} (o : Option α) (f : α → AVal P R),
      (bindings E prm fuel).step (.fresh c) s = o.map (fun a => (s, .inr (f a))) →
      (Returns (bindings E prm fuel) (.fresh c) s t v ↔ t = s ∧ ∃ a, o = some a ∧ v = f a) := by
    intro c α o f ho
    cases o with
    | none => simp [returns_none ho]
    | some a => simp [returns_inr ho]
  match c with
  | .getTargets => exact key _ _ _ rfl
  | .enof none => exact key _ _ _ rfl
  | .enof (some b) => exact key _ _ _ rfl
  | .nof none rlim => exact key _ _ _ rfl
  | .nof (some b) rlim => exact key _ _ _ rfl
  | .tracker (.predict m ord) =>
    simp only [Answers]
    cases hp : predict E prm m ord s with
    | none =>
      have : (bindings E prm fuel).step (.fresh (.tracker (.predict m ord))) s = none := by
        simp [bindings, threadStep, hp]
      simp [returns_none this]
    | some s' =>
      have : (bindings E prm fuel).step (.fresh (.tracker (.predict m ord))) s =
          some (s', .inr .none) := by
        simp [bindings, threadStep, hp]
      simp [returns_inr this, eq_comm]
  | .tracker (.correct S ch scan dflt) =>
    simp only [Answers, correct]
    cases hp : prepare E S scan s with
    | none =>
      have : (bindings E prm fuel).step (.fresh (.tracker (.correct S ch scan dflt))) s = none := by
        simp [bindings, threadStep, hp]
      simp [returns_none this]
    | some x =>
      obtain ⟨cls, s1, rcid⟩ := x
      have : (bindings E prm fuel).step (.fresh (.tracker (.correct S ch scan dflt))) s =
          some (s1, .inl (.loop S ch scan.length cls (ch.sched cls) (initReps scan rcid dflt)
            fun _ => 0)) := by
        simp [bindings, threadStep, hp]
      simp only [returns_inl this]
      have hl := loop_spec (E := E) (prm := prm) (fuel := fuel) S ch scan.length cls (ch.sched cls)
        (initReps scan rcid dflt) (fun _ => 0) s1
      cases hg : clRun E S prm ch.pick fuel ch.wt cls (ch.sched cls)
        ⟨s1, initReps scan rcid dflt, fun _ => 0⟩ with
      | none => simp only [hg] at hl; simp [hl.2]
      | some g =>
        simp only [hg] at hl
        cases hb : birth E S prm ch.alloc ch.ord cls scan.length g.reps g.st with
        | none => simp only [hb] at hl; simp [hl.2, hb]
        | some s' => simp only [hb] at hl; simp [hl.2, hb, eq_comm]

/-- A call of `predict` or `correct` fails exactly if the step of a history is undefined. -/
theorem tracker_fails (c : Call P R) (s : St P) :
    Fails (bindings E prm fuel) (.fresh (.tracker c)) s ↔ step E prm fuel s c = none := by
  cases c with
  | predict m ord =>
    cases hp : predict E prm m ord s with
    | none =>
      have : (bindings E prm fuel).step (.fresh (.tracker (.predict m ord))) s = none := by
        simp [bindings, threadStep, hp]
      simp only [Tracker.step, hp, fails_none this]
    | some s' =>
      have : (bindings E prm fuel).step (.fresh (.tracker (.predict m ord))) s =
          some (s', .inr .none) := by
        simp [bindings, threadStep, hp]
      simp only [Tracker.step, hp, fails_inr this, reduceCtorEq]
  | correct S ch scan dflt =>
    simp only [Tracker.step, correct]
    cases hp : prepare E S scan s with
    | none =>
      have : (bindings E prm fuel).step (.fresh (.tracker (.correct S ch scan dflt))) s = none := by
        simp [bindings, threadStep, hp]
      simp [fails_none this]
    | some x =>
      obtain ⟨cls, s1, rcid⟩ := x
      have : (bindings E prm fuel).step (.fresh (.tracker (.correct S ch scan dflt))) s =
          some (s1, .inl (.loop S ch scan.length cls (ch.sched cls) (initReps scan rcid dflt)
            fun _ => 0)) := by
        simp [bindings, threadStep, hp]
      simp only [fails_inl this]
      have hl := loop_spec (E := E) (prm := prm) (fuel := fuel) S ch scan.length cls (ch.sched cls)
        (initReps scan rcid dflt) (fun _ => 0) s1
      cases hg : clRun E S prm ch.pick fuel ch.wt cls (ch.sched cls)
        ⟨s1, initReps scan rcid dflt, fun _ => 0⟩ with
      | none => simp only [hg] at hl; simp [hl.1]
      | some g =>
        simp only [hg] at hl
        cases hb : birth E S prm ch.alloc ch.ord cls scan.length g.reps g.st with
        | none => simp only [hb] at hl; simp [hl.1, hb]
        | some s' => simp only [hb] at hl; simp [hl.1, hb]

/-- The calls a program has made when it has received the results `h`.  Specification. -/
def made (p : Prog C V) (h : List (Option V)) : List C :=
  (List.range h.length).filterMap fun k => p (h.take k)

theorem made_snoc (p : Prog C V) (h : List (Option V)) (v : Option V) :
    made p (h ++ [v]) = made p h ++ (p h).toList := by
  unfold made
  rw [List.length_append, List.length_singleton, List.range_succ, List.filterMap_append]
  congr 1
  · refine List.filterMap_congr fun k hk => ?_
    rw [List.take_append_of_le_length (List.mem_range.1 hk).le]
  · simp only [List.filterMap_cons, List.filterMap_nil, List.take_left']
    cases p h <;> rfl

/-- The calls of a tracker that change it.  Specification. -/
def ACall.change : ACall P R → Option (Call P R)
  | .tracker c => some c
  | _ => none

theorem answers_run {c : ACall P R} {s t : St P} {v : AVal P R} (h : Answers E prm fuel s t v c) :
    run E prm fuel (c.change.toList) s = some t := by
  match c, h with
  | .tracker (.predict m ord), h => simp [ACall.change, run, Tracker.step, h.1]
  | .tracker (.correct S ch scan dflt), ⟨reps, h, _⟩ => simp [ACall.change, run, Tracker.step, h]
  | .getTargets, h => simp [ACall.change, run, h.1]
  | .enof none, h => simp [ACall.change, run, h.1]
  | .enof (some b), h => simp [ACall.change, run, h.1]
  | .nof none rlim, h => simp [ACall.change, run, h.1]
  | .nof (some b) rlim, h => simp [ACall.change, run, h.1]

theorem direct_run {p : Prog (ACall P R) (AVal P R)} {s0 : St P} {h : List (Option (AVal P R))}
    {s : St P} (hd : Direct (bindings E prm fuel) p s0 h s) :
    run E prm fuel ((made p h).filterMap ACall.change) s0 = some s := by
  induction hd with
  | nil => rfl
  | @snoc h s s' c v hd hc hr ih =>
    rw [made_snoc, List.filterMap_append, run_append, ih, Option.bind_some, hc]
    have := answers_run ((returns_iff c s s' v).1 hr)
    rw [← this]
    congr 1

theorem direct_take {p : Prog (ACall P R) (AVal P R)} {s0 : St P} {h : List (Option (AVal P R))}
    {s : St P} (hd : Direct (bindings E prm fuel) p s0 h s) (k : Nat) (v : Option (AVal P R))
    (hk : h[k]? = some v) : ∃ s1 s2 c w, v = some w ∧ p (h.take k) = some c ∧
      run E prm fuel ((made p (h.take k)).filterMap ACall.change) s0 = some s1 ∧
      Answers E prm fuel s1 s2 w c := by
  induction hd with
  | nil => simp at hk
  | @snoc h s s' c w hd hc hr ih =>
    by_cases hlt : k < h.length
    · rw [List.getElem?_append_left hlt] at hk
      rw [List.take_append_of_le_length hlt.le]
      exact ih hk
    · have hle := (List.getElem?_eq_some_iff.1 hk).1
      rw [List.length_append, List.length_singleton] at hle
      obtain rfl : k = h.length := by omega
      rw [List.getElem?_append_right (le_refl _), Nat.sub_self] at hk
      simp only [List.getElem?_cons_zero, Option.some.injEq] at hk
      rw [List.take_left']
      · exact ⟨s, s', c, w, hk.symm, hc, direct_run hd, (returns_iff c s s' w).1 hr⟩
      · rfl

/-- **C104, the tracker** A single coroutine that uses a tracker: whenever it has control, the tracker is in
the state of the history of its calls, and every call it made has returned what that call returns in the
state after the calls before it.  Undefined behaviour of `predict` or `correct` happens only if the
history is undefined. -/
theorem C104_tracker {prog : Nat → Prog (ACall P R) (AVal P R)} {s0 : St P}
    {A : App (ACall P R) (St P) (Thread P R) (AVal P R)}
    (h : Reach (bindings E prm fuel) prog 3 false (App.init s0 1) A) :
    ∃ t, A.tasks = [t] ∧
      (t.wait = none →
        run E prm fuel ((made (prog 0) t.hist).filterMap ACall.change) s0 = A.shared ∧
        ∀ (k : Nat) (v : Option (AVal P R)), t.hist[k]? = some v → ∃ s1 s2 c w, v = some w ∧
          prog 0 (t.hist.take k) = some c ∧
          run E prm fuel ((made (prog 0) (t.hist.take k)).filterMap ACall.change) s0 = some s1 ∧
          Answers E prm fuel s1 s2 w c) ∧
      (A.shared = none → ∃ c, prog 0 t.hist = some c ∧ (∀ d, c = .tracker d →
        run E prm fuel ((made (prog 0) t.hist).filterMap ACall.change ++ [d]) s0 = none)) := by
  obtain ⟨_, t, h1, h2, h3⟩ := C104_single h
  refine ⟨t, h1, fun hw => ?_, fun hn => ?_⟩
  · obtain ⟨s, hs, hd, _⟩ := h2 hw
    exact ⟨by rw [hs, direct_run hd], fun k v hk => direct_take hd k v hk⟩
  · obtain ⟨s, c, hd, hc, hf⟩ := h3 hn
    refine ⟨c, hc, ?_⟩
    rintro d rfl
    rw [run_append, direct_run hd, Option.bind_some]
    have := (tracker_fails d s).1 hf
    simp [run, this]

end

/-! ## Overlapping calls -/

theorem Reach.trans {A B D : App C σ τ V} (h1 : Reach M prog limit giveUp A B)
    (h2 : Reach M prog limit giveUp B D) : Reach M prog limit giveUp A D := by
  induction h2 with
  | refl => exact h1
  | tail _ hs ih => exact ih.tail hs

theorem reach_runs {A : App C σ τ V} {n : Nat} {l l' : List (Nat × τ)} {x y : τ} {s s' : σ}
    (hs : A.shared = some s) (hr : A.running = l ++ (n, x) :: l') (h : Runs M x s y s') :
    Reach M prog limit giveUp A { A with shared := some s', running := l ++ (n, y) :: l' } := by
  induction h with
  | refl => rw [← hs, ← hr]; exact .refl
  | tail _ h2 ih => exact ih.tail (Step.work (A := { A with shared := _, running := _ }) rfl rfl h2)

theorem reach_returns {A : App C σ τ V} {n : Nat} {l l' : List (Nat × τ)} {x : τ} {s s' : σ} {v : V}
    (hs : A.shared = some s) (hr : A.running = l ++ (n, x) :: l') (h : Returns M x s s' v) :
    Reach M prog limit giveUp A { A with
      shared := some s', running := l ++ l'
      result := fun k => if k = n then some v else A.result k } := by
  obtain ⟨y, s1, h1, h2⟩ := h
  exact (reach_runs hs hr h1).tail (Step.finish (A := { A with shared := _, running := _ }) rfl rfl h2)

theorem reach_fails {A : App C σ τ V} {n : Nat} {l l' : List (Nat × τ)} {x : τ} {s : σ}
    (hs : A.shared = some s) (hr : A.running = l ++ (n, x) :: l') (h : Fails M x s) :
    ∃ B, Reach M prog limit giveUp A B ∧ B.shared = none := by
  obtain ⟨y, s1, h1, h2⟩ := h
  exact ⟨_, (reach_runs hs hr h1).tail
    (Step.crash (A := { A with shared := _, running := _ }) rfl rfl h2), rfl⟩

/-- The program that makes the calls of a list.  Specification. -/
def calls (l : List C) : Prog C V := fun h => l[h.length]?

/-- One coroutine makes its first call and receives the result; the others have not started. -/
theorem first_call {s0 s1 : σ} {k : Nat} {c : C} {v : V} (hk : 0 < k) (hl : 0 < limit)
    (hc : prog 0 [] = some c) (hr : Returns M (M.start c) s0 s1 v) :
    Reach M prog limit giveUp (App.init s0 k) ⟨some s1,
      (List.replicate k ⟨[], none⟩).set 0 ⟨[some v], none⟩, [], [],
      fun n => if n = 0 then some v else none, 1⟩ := by
  have ht : (List.replicate k (⟨[], none⟩ : Task V))[0]? = some ⟨[], none⟩ := by
    simp [hk]
  have e1 := Step.submit (M := M) (prog := prog) (limit := limit) (giveUp := giveUp)
    (A := App.init s0 k) (i := 0) ht rfl hc
  have e2 := Step.take (M := M) (prog := prog) (limit := limit) (giveUp := giveUp)
    (A := ⟨some s0, (List.replicate k ⟨[], none⟩).set 0 ⟨[], some 0⟩, [(0, c)], [], fun _ => none, 1⟩)
    (n := 0) (c := c) (q := []) rfl hl
  have e3 := reach_returns (M := M) (prog := prog) (limit := limit) (giveUp := giveUp)
    (A := ⟨some s0, (List.replicate k ⟨[], none⟩).set 0 ⟨[], some 0⟩, [], [(0, M.start c)],
      fun _ => none, 1⟩) (n := 0) (l := []) (l' := []) rfl rfl hr
  have e4 := Step.resume (M := M) (prog := prog) (limit := limit) (giveUp := giveUp)
    (A := ⟨some s1, (List.replicate k ⟨[], none⟩).set 0 ⟨[], some 0⟩, [], [],
      fun n => if n = 0 then some v else none, 1⟩) (i := 0) (n := 0) (t := ⟨[], some 0⟩) (v := v)
    (by simp [hk]) rfl rfl
  have := (((Reach.refl.tail e1).tail e2).trans e3).tail e4
  simpa using this

/-- Two calls of two coroutines overlap. -/
theorem two_calls {A : App C σ τ V} {i j : Nat} (hij : i ≠ j) {hi hj : List (Option V)}
    (ti : A.tasks[i]? = some ⟨hi, none⟩) (tj : A.tasks[j]? = some ⟨hj, none⟩) {c d : C}
    (hc : prog i hi = some c) (hd : prog j hj = some d) (hq : A.queue = []) (hr : A.running = [])
    (hl : 1 < limit) {s s2 s3 : σ} {x : τ} {w : V} (hs : A.shared = some s)
    (h1 : M.step (M.start c) s = some (s2, .inl x)) (h2 : Returns M (M.start d) s2 s3 w)
    (h3 : Fails M x s3) : ∃ B, Reach M prog limit giveUp A B ∧ B.shared = none := by
  obtain ⟨sh, tasks, queue, running, result, count⟩ := A
  subst hs hq hr
  have e1 := Step.submit (M := M) (prog := prog) (limit := limit) (giveUp := giveUp)
    (A := ⟨some s, tasks, [], [], result, count⟩) ti rfl hc
  have e2 := Step.take (M := M) (prog := prog) (limit := limit) (giveUp := giveUp)
    (A := ⟨some s, tasks.set i ⟨hi, some count⟩, [(count, c)], [], result, count + 1⟩)
    (n := count) (c := c) (q := []) rfl (by simp; omega)
  have e3 := Step.work (M := M) (prog := prog) (limit := limit) (giveUp := giveUp)
    (A := ⟨some s, tasks.set i ⟨hi, some count⟩, [], [(count, M.start c)], result, count + 1⟩)
    (n := count) (l := []) (l' := []) rfl rfl h1
  have e4 := Step.submit (M := M) (prog := prog) (limit := limit) (giveUp := giveUp)
    (A := ⟨some s2, tasks.set i ⟨hi, some count⟩, [], [(count, x)], result, count + 1⟩)
    (i := j) (t := ⟨hj, none⟩) (c := d)
    (by show (tasks.set i _)[j]? = _; rw [List.getElem?_set_ne hij]; exact tj) rfl hd
  have e5 := Step.take (M := M) (prog := prog) (limit := limit) (giveUp := giveUp)
    (A := ⟨some s2, (tasks.set i ⟨hi, some count⟩).set j ⟨hj, some (count + 1)⟩, [(count + 1, d)],
      [(count, x)], result, count + 1 + 1⟩) (n := count + 1) (c := d) (q := []) rfl (by simpa using hl)
  have e6 := reach_returns (M := M) (prog := prog) (limit := limit) (giveUp := giveUp)
    (A := ⟨some s2, (tasks.set i ⟨hi, some count⟩).set j ⟨hj, some (count + 1)⟩, [],
      [(count, x), (count + 1, M.start d)], result, count + 1 + 1⟩) (n := count + 1)
    (l := [(count, x)]) (l' := []) rfl rfl h2
  obtain ⟨B, e7, hB⟩ := reach_fails (M := M) (prog := prog) (limit := limit) (giveUp := giveUp)
    (A := ⟨some s3, (tasks.set i ⟨hi, some count⟩).set j ⟨hj, some (count + 1)⟩, [],
      [(count, x)], fun k => if k = count + 1 then some w else result k, count + 1 + 1⟩)
    (n := count) (l := []) (l' := []) rfl rfl h3
  exact ⟨B, ((((((Reach.refl.tail e1).tail e2).tail e3).tail e4).tail e5).trans e6).trans e7, hB⟩

/-- Two calls of one coroutine that gives up waiting overlap. -/
theorem give_up {A : App C σ τ V} {i : Nat} {hi : List (Option V)}
    (ti : A.tasks[i]? = some ⟨hi, none⟩) {c d : C}
    (hc : prog i hi = some c) (hd : prog i (hi ++ [none]) = some d) (hq : A.queue = [])
    (hr : A.running = []) (hl : 1 < limit) {s s2 s3 : σ} {x : τ} {w : V} (hs : A.shared = some s)
    (h1 : M.step (M.start c) s = some (s2, .inl x)) (h2 : Returns M (M.start d) s2 s3 w)
    (h3 : Fails M x s3) : ∃ B, Reach M prog limit true A B ∧ B.shared = none := by
  obtain ⟨sh, tasks, queue, running, result, count⟩ := A
  subst hs hq hr
  have hlen := (List.getElem?_eq_some_iff.1 ti).1
  have e1 := Step.submit (M := M) (prog := prog) (limit := limit) (giveUp := true)
    (A := ⟨some s, tasks, [], [], result, count⟩) ti rfl hc
  have e2 := Step.take (M := M) (prog := prog) (limit := limit) (giveUp := true)
    (A := ⟨some s, tasks.set i ⟨hi, some count⟩, [(count, c)], [], result, count + 1⟩)
    (n := count) (c := c) (q := []) rfl (by simp; omega)
  have e3 := Step.work (M := M) (prog := prog) (limit := limit) (giveUp := true)
    (A := ⟨some s, tasks.set i ⟨hi, some count⟩, [], [(count, M.start c)], result, count + 1⟩)
    (n := count) (l := []) (l' := []) rfl rfl h1
  have e3' := Step.giveUp (M := M) (prog := prog) (limit := limit) (giveUp := true)
    (A := ⟨some s2, tasks.set i ⟨hi, some count⟩, [], [(count, x)], result, count + 1⟩)
    (i := i) (n := count) (t := ⟨hi, some count⟩) rfl
    (List.getElem?_set_self hlen) rfl
  simp only [List.set_set] at e3'
  have e4 := Step.submit (M := M) (prog := prog) (limit := limit) (giveUp := true)
    (A := ⟨some s2, tasks.set i ⟨hi ++ [none], none⟩, [], [(count, x)], result, count + 1⟩)
    (i := i) (t := ⟨hi ++ [none], none⟩) (c := d) (List.getElem?_set_self hlen) rfl hd
  simp only [List.set_set] at e4
  have e5 := Step.take (M := M) (prog := prog) (limit := limit) (giveUp := true)
    (A := ⟨some s2, tasks.set i ⟨hi ++ [none], some (count + 1)⟩, [(count + 1, d)],
      [(count, x)], result, count + 1 + 1⟩) (n := count + 1) (c := d) (q := []) rfl (by simpa using hl)
  have e6 := reach_returns (M := M) (prog := prog) (limit := limit) (giveUp := true)
    (A := ⟨some s2, tasks.set i ⟨hi ++ [none], some (count + 1)⟩, [],
      [(count, x), (count + 1, M.start d)], result, count + 1 + 1⟩) (n := count + 1)
    (l := [(count, x)]) (l' := []) rfl rfl h2
  obtain ⟨B, e7, hB⟩ := reach_fails (M := M) (prog := prog) (limit := limit) (giveUp := true)
    (A := ⟨some s3, tasks.set i ⟨hi ++ [none], some (count + 1)⟩, [],
      [(count, x)], fun k => if k = count + 1 then some w else result k, count + 1 + 1⟩)
    (n := count) (l := []) (l' := []) rfl rfl h3
  exact ⟨B, (((((((Reach.refl.tail e1).tail e2).tail e3).tail e3').tail e4).tail e5).trans e6).trans
    e7, hB⟩

/-- `predict` between the first step of `correct` and the rest, as a call in another thread. -/
theorem during {P R O : Type} {E : Env P R O} {prm : Params} {fuel : Nat} {S : Sensor P R}
    {ch : Choices} {scan : List (Rep R)} {dflt : Rep R} {m : Motion P} {ord : List Nat → List Nat}
    {s s' s'' : St P} (hcor : step E prm fuel s (.correct S ch scan dflt) = some s')
    (hpre : ∀ cls s1 rcid, prepare E S scan s = some (cls, s1, rcid) →
      predict E prm m ord s1 = some s'')
    (h : correctDuring E S prm ch fuel scan dflt m ord 0 s = none) :
    ∃ (x : Thread P R) (s2 s3 : St P) (w : AVal P R),
      (bindings E prm fuel).step (.fresh (.tracker (.correct S ch scan dflt))) s = some (s2, .inl x) ∧
      Returns (bindings E prm fuel) (.fresh (.tracker (.predict m ord))) s2 s3 w ∧
      Fails (bindings E prm fuel) x s3 := by
  cases hp : prepare E S scan s with
  | none => simp [Tracker.step, correct, hp] at hcor
  | some y =>
    obtain ⟨cls, s1, rcid⟩ := y
    have hpp := hpre cls s1 rcid hp
    refine ⟨.loop S ch scan.length cls (ch.sched cls) (initReps scan rcid dflt) fun _ => 0, s1, s'',
      .none, by simp [bindings, threadStep, hp], (returns_iff _ _ _ _).2 ⟨hpp, rfl⟩, ?_⟩
    have hl := loop_spec (E := E) (prm := prm) (fuel := fuel) S ch scan.length cls (ch.sched cls)
      (initReps scan rcid dflt) (fun _ => 0) s''
    simp only [correctDuring, hp, List.take_zero, clRun, hpp, List.drop_zero] at h
    cases hg : clRun E S prm ch.pick fuel ch.wt cls (ch.sched cls)
        ⟨s'', initReps scan rcid dflt, fun _ => 0⟩ with
    | none => simp only [hg] at hl; exact hl.1
    | some g =>
      simp only [hg] at hl h
      simp only [h] at hl
      exact hl.1

/-- The scan of the examples, as a call. -/
noncomputable def exCorrect : Call ℚ ℚ := .correct exS exCh exScan ⟨0, none, 0⟩

/-- What the two refutations share. -/
theorem exOverlap : ∃ (F : Nat) (m : Motion ℚ) (s s2 s3 : St ℚ) (v w : AVal ℚ ℚ) (x : Thread ℚ ℚ),
    (∃ s', run exE exPrm F [.predict m id, exCorrect, exCorrect] St.empty = some s') ∧
    (∃ s', run exE exPrm F [exCorrect, .predict m id, exCorrect] St.empty = some s') ∧
    (∃ s', run exE exPrm F [exCorrect, exCorrect, .predict m id] St.empty = some s') ∧
    Returns (bindings exE exPrm F) (.fresh (.tracker exCorrect)) St.empty s v ∧
    (bindings exE exPrm F).step (.fresh (.tracker exCorrect)) s = some (s2, .inl x) ∧
    Returns (bindings exE exPrm F) (.fresh (.tracker (.predict m id))) s2 s3 w ∧
    Fails (bindings exE exPrm F) x s3 := by
  obtain ⟨F, s, m, h1, ⟨s4, h2⟩, ⟨s5, h3⟩, h4⟩ := C32_refuted
  have hrun : run exE exPrm F [exCorrect] St.empty = some s := h1
  have hst : step exE exPrm F St.empty exCorrect = some s := by
    cases h : step exE exPrm F St.empty exCorrect with
    | none => simp [run, h] at hrun
    | some t => simp [run, h] at hrun; rw [hrun]
  have hinv := run_inv exE_box (Inv.empty exE) (fun c h => exCalls_ok c (List.mem_of_mem_take h)) h1
  obtain ⟨hf, hch, hz⟩ := exOk
  obtain ⟨cls, s1, rcid, p1, p2, p3, _⟩ := prepare_ok exE_box hf hz hinv.ok
  obtain ⟨s'', q1, _⟩ := predict_spec exE_box exPrm m (ord := id) (fun l => List.Perm.refl _) p3
  have hc : ∃ s', step exE exPrm F s exCorrect = some s' := by
    rw [show ([.correct exS exCh exScan ⟨0, none, 0⟩, .predict m id] : List (Call ℚ ℚ)) =
      exCorrect :: [.predict m id] from rfl, run] at h3
    cases h : step exE exPrm F s exCorrect with
    | none => simp [h] at h3
    | some t => exact ⟨t, rfl⟩
  obtain ⟨s6, hc⟩ := hc
  obtain ⟨x, s2, s3, w, e1, e2, e3⟩ := during (S := exS) (ch := exCh) (scan := exScan)
    (dflt := ⟨0, none, 0⟩) (m := m) (ord := id) (s'' := s'') hc (by
      intro cls' s1' rcid' h
      rw [p1] at h
      simp only [Option.some.injEq, Prod.mk.injEq] at h
      obtain ⟨_, rfl, _⟩ := h
      exact q1) h4
  obtain ⟨reps, hcr⟩ : ∃ reps, correct exE exS exPrm exCh F exScan ⟨0, none, 0⟩ St.empty =
      some (s, reps) := by
    have hst' := hst
    simp only [exCorrect, Tracker.step] at hst'
    cases h : correct exE exS exPrm exCh F exScan ⟨0, none, 0⟩ (St.empty : St ℚ) with
    | none => simp [h] at hst'
    | some y =>
      obtain ⟨y1, y2⟩ := y
      simp [h] at hst'
      exact ⟨y2, by rw [hst']⟩
  have hpe : predict exE exPrm m id (St.empty : St ℚ) = some St.empty := rfl
  refine ⟨F, m, s, s2, s3, _, w, x, ⟨s6, ?_⟩, ⟨s4, ?_⟩, ⟨s5, ?_⟩,
    (returns_iff _ _ _ _).2 ⟨reps, hcr, rfl⟩, e1, e2, e3⟩
  · simp only [run, Tracker.step, hpe]
    simp only [run, Tracker.step] at hst hc
    simp [hst, hc]
  · rw [run, hst]; exact h2
  · rw [run, hst]; exact h3

/-- **C104, two coroutines** The claim that several coroutines may share an application is false: one
coroutine corrects twice, another predicts once; each order of the three calls is fine, but there is an
order of events in which the tracker uses a deleted target. -/
theorem C104_shared_refuted : ∃ (F : Nat) (m : Motion ℚ),
    (∃ s', run exE exPrm F [.predict m id, exCorrect, exCorrect] St.empty = some s') ∧
    (∃ s', run exE exPrm F [exCorrect, .predict m id, exCorrect] St.empty = some s') ∧
    (∃ s', run exE exPrm F [exCorrect, exCorrect, .predict m id] St.empty = some s') ∧
    ∃ A, Reach (bindings exE exPrm F)
      (fun i => if i = 0 then calls [.tracker exCorrect, .tracker exCorrect]
        else calls [.tracker (.predict m id)]) 3 false (App.init St.empty 2) A ∧ A.shared = none := by
  obtain ⟨F, m, s, s2, s3, v, w, x, h1, h2, h3, h4, h5, h6, h7⟩ := exOverlap
  refine ⟨F, m, h1, h2, h3, ?_⟩
  have g1 := first_call (M := bindings exE exPrm F)
    (prog := fun i => if i = 0 then calls [.tracker exCorrect, .tracker exCorrect]
      else calls [.tracker (.predict m id)]) (limit := 3) (giveUp := false) (k := 2)
    (c := .tracker exCorrect) (by norm_num) (by norm_num) rfl h4
  obtain ⟨B, g2, g3⟩ := two_calls (M := bindings exE exPrm F) (giveUp := false) (limit := 3)
    (prog := fun i => if i = 0 then calls [.tracker exCorrect, .tracker exCorrect]
      else calls [.tracker (.predict m id)])
    (A := ⟨some s, (List.replicate 2 ⟨[], none⟩).set 0 ⟨[some v], none⟩, [], [],
      fun n => if n = 0 then some v else none, 1⟩) (i := 0) (j := 1) (by norm_num)
    (hi := [some v]) (hj := []) rfl rfl (c := .tracker exCorrect) (d := .tracker (.predict m id))
    rfl rfl rfl rfl (by norm_num) rfl h5 h6 h7
  exact ⟨B, g1.trans g2, g3⟩

/-- **C104, giving up** The claim that a coroutine may give up waiting (a timeout around a method) is
false: the call goes on in its thread, and the next call of the same coroutine overlaps with it. -/
theorem C104_timeout_refuted : ∃ (F : Nat) (m : Motion ℚ),
    (∃ s', run exE exPrm F [exCorrect, exCorrect, .predict m id] St.empty = some s') ∧
    ∃ A, Reach (bindings exE exPrm F)
      (fun _ => calls [.tracker exCorrect, .tracker exCorrect, .tracker (.predict m id)]) 3 true
      (App.init St.empty 1) A ∧ A.shared = none := by
  obtain ⟨F, m, s, s2, s3, v, w, x, h1, h2, h3, h4, h5, h6, h7⟩ := exOverlap
  refine ⟨F, m, h3, ?_⟩
  have g1 := first_call (M := bindings exE exPrm F)
    (prog := fun _ => calls [.tracker exCorrect, .tracker exCorrect, .tracker (.predict m id)])
    (limit := 3) (giveUp := true) (k := 1)
    (c := .tracker exCorrect) (by norm_num) (by norm_num) rfl h4
  obtain ⟨B, g2, g3⟩ := give_up (M := bindings exE exPrm F) (limit := 3)
    (prog := fun _ => calls [.tracker exCorrect, .tracker exCorrect, .tracker (.predict m id)])
    (A := ⟨some s, (List.replicate 1 ⟨[], none⟩).set 0 ⟨[some v], none⟩, [], [],
      fun n => if n = 0 then some v else none, 1⟩) (i := 0)
    (hi := [some v]) rfl (c := .tracker exCorrect) (d := .tracker (.predict m id))
    rfl rfl rfl rfl (by norm_num) rfl h5 h6 h7
  exact ⟨B, g1.trans g2, g3⟩

/-- A coroutine that corrects once: the call has returned and the coroutine has control again. -/
example : ∃ (F : Nat) (s : St ℚ) (v : AVal ℚ ℚ)
    (A : App (ACall ℚ ℚ) (St ℚ) (Thread ℚ ℚ) (AVal ℚ ℚ)),
    Reach (bindings exE exPrm F) (fun _ => calls [.tracker exCorrect, .getTargets]) 3 false
      (App.init St.empty 1) A ∧ A.tasks = [⟨[some v], none⟩] ∧ A.shared = some s ∧
    run exE exPrm F [exCorrect] St.empty = some s := by
  obtain ⟨F, m, s, s2, s3, v, w, x, h1, h2, h3, h4, _⟩ := exOverlap
  have g1 := first_call (M := bindings exE exPrm F)
    (prog := fun _ => calls [.tracker exCorrect, .getTargets])
    (limit := 3) (giveUp := false) (k := 1)
    (c := .tracker exCorrect) (by norm_num) (by norm_num) rfl h4
  obtain ⟨t, e1, e2, _⟩ := C104_tracker g1
  have ht : t = ⟨[some v], none⟩ := by simpa using e1.symm
  subst ht
  exact ⟨F, s, v, _, g1, rfl, rfl, (e2 rfl).1⟩

end Verif.App
