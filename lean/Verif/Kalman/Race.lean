/-!
# The shared random number generator: C71

`nrand` and `urand` (`include/statistics.inc:8-19`) use one generator `gen` for all threads and take
no lock.  They are reached from parallel loops: `target.hpp:126` and `gm.hpp:96` call
`Gaussian_::correct`, which calls `pD` (`sensors.hpp:43-46`), `overlap` and `sample`
(`gaussian.hpp:93-95,122-148`).  In C++ this is a data race and so undefined; the model below is
milder than that and only lets the accesses of the threads interleave.
-/

namespace Verif.Race

variable {S V : Type}

/-- A thread: the state of the generator it has read, if it is inside a draw, and the numbers it has
drawn (`statistics.inc:17-19`). -/
structure Thr (S V : Type) where
  reg : Option S
  out : List V

/-- One access of thread `t` to the generator in a call of `nrand`, `statistics.inc:17-19`: it reads
the state, or stores the next state and returns the number.  `next` is the generator
(`statistics.inc:9,11`).  Simplified: the state is read and written at once; on the machine the state
has many words and each of them can be torn. -/
def step (next : S → S × V) (st : S × (Nat → Thr S V)) (t : Nat) : S × (Nat → Thr S V) :=
  match (st.2 t).reg with
  | none => (st.1, fun i => if i = t then ⟨some st.1, (st.2 t).out⟩ else st.2 i)
  | some s => ((next s).1, fun i => if i = t then ⟨none, (st.2 t).out ++ [(next s).2]⟩ else st.2 i)

/-- An execution: the threads access the generator in the order of the schedule
(`statistics.inc:17-19` called from the loop `target.hpp:126-140`). -/
def run (next : S → S × V) (st : S × (Nat → Thr S V)) (sched : List Nat) : S × (Nat → Thr S V) :=
  sched.foldl (step next) st

/-- The threads before the loop, `target.hpp:125`: nobody has drawn. -/
def idle : Nat → Thr S V := fun _ => ⟨none, []⟩

/-- The first `k` numbers of the generator, `statistics.inc:9`. -/
def stream (next : S → S × V) : S → Nat → List V
  | _, 0 => []
  | s, k + 1 => (next s).2 :: stream next (next s).1 k

theorem run_pairs (next : S → S × V) (ts : List Nat) : ∀ (s : S) (f : Nat → Thr S V),
    (∀ i, (f i).reg = none) → ∀ i,
    ((run next (s, f) (ts.flatMap fun t => [t, t])).2 i).out =
      (f i).out ++ (ts.zip (stream next s ts.length)).filterMap
        fun p => if p.1 = i then some p.2 else none := by
  induction ts with
  | nil => intro s f _ i; simp [run]
  | cons t ts ih =>
    intro s f hf i
    have e : run next (s, f) ((t :: ts).flatMap fun t => [t, t]) =
        run next ((next s).1, fun j => if j = t then ⟨none, (f t).out ++ [(next s).2]⟩ else f j)
          (ts.flatMap fun t => [t, t]) := by
      simp only [List.flatMap_cons, run, List.cons_append, List.nil_append, List.foldl_cons]
      congr 1
      simp only [step, hf t, if_true]
      congr 1
      funext j
      by_cases h : j = t
      · simp [h]
      · simp [h]
    rw [e, ih _ _ (by intro j; by_cases h : j = t <;> simp [h, hf j])]
    simp only [List.length_cons, stream, List.zip_cons_cons, List.filterMap_cons]
    by_cases h : i = t
    · subst h
      simp
    · have h' : ¬ t = i := fun e => h e.symm
      simp [h, h']

/-- C71 for executions in which no draw is interrupted by another thread: the threads share out the
consecutive numbers of the generator, each number going to one thread. -/
theorem C71_atomic (next : S → S × V) (s : S) (ts : List Nat) (i : Nat) :
    ((run next (s, idle) (ts.flatMap fun t => [t, t])).2 i).out =
      (ts.zip (stream next s ts.length)).filterMap fun p => if p.1 = i then some p.2 else none := by
  rw [run_pairs next ts s idle fun _ => rfl]
  rfl

/-- C71 is false in general: whatever the generator, two threads that draw `k` numbers each can
receive the same `k` numbers. -/
theorem C71_refuted (next : S → S × V) (s : S) (k : Nat) :
    ∃ sched : List Nat, (∀ t ∈ sched, t < 2) ∧
      ((run next (s, idle) sched).2 0).out = stream next s k ∧
      ((run next (s, idle) sched).2 1).out = stream next s k := by
  refine ⟨(List.replicate k [0, 1, 0, 1]).flatten, ?_, ?_⟩
  · intro t ht
    simp only [List.mem_flatten, List.mem_replicate] at ht
    obtain ⟨l, ⟨_, rfl⟩, hl⟩ := ht
    simp at hl
    omega
  · have key : ∀ (k : Nat) (s : S) (f : Nat → Thr S V), (f 0).reg = none → (f 1).reg = none →
        ((run next (s, f) (List.replicate k [0, 1, 0, 1]).flatten).2 0).out =
          (f 0).out ++ stream next s k ∧
        ((run next (s, f) (List.replicate k [0, 1, 0, 1]).flatten).2 1).out =
          (f 1).out ++ stream next s k := by
      intro k
      induction k with
      | zero => intro s f _ _; simp [run, stream]
      | succ k ih =>
        intro s f h0 h1
        have e : ∃ g : Nat → Thr S V, run next (s, f) (List.replicate (k + 1) [0, 1, 0, 1]).flatten =
            run next ((next s).1, g) (List.replicate k [0, 1, 0, 1]).flatten ∧
            g 0 = ⟨none, (f 0).out ++ [(next s).2]⟩ ∧ g 1 = ⟨none, (f 1).out ++ [(next s).2]⟩ := by
          simp only [List.replicate_succ, List.flatten_cons, run, List.cons_append, List.nil_append,
            List.foldl_cons, step, h0, h1]
          simp [h1]
          exact ⟨_, rfl, rfl, rfl⟩
        obtain ⟨g, e, g0, g1⟩ := e
        have := ih (next s).1 g (by rw [g0]) (by rw [g1])
        rw [e, this.1, this.2, g0, g1]
        simp [stream]
    exact key k s idle rfl rfl

/-! A congruential generator. -/

example := C71_atomic (fun s : Nat => (s * 16807 % 2147483647, s % 100)) 1 [0, 1, 1, 0] 1
example := C71_refuted (fun s : Nat => (s * 16807 % 2147483647, s % 100)) 1 1000

end Verif.Race
