import Verif.Plot.Digits
import Verif.Particles.Model

/-!
# C123: the tracks of a tracker with particles, drawn from its log

`Target_::repr` writes the particles with `PF::repr`; `clmb.py` reads them with its class `PF`.
-/

namespace Verif.Plot

open Verif.Json

variable {α β : Type}

/-! ## The model -/

/-- `Target_` with the density class `PF`, `target.hpp:46-60`, `pf.hpp:44-56`: what is written of it; `w` is one
row, `x` has a row for each state. -/
structure PTgt (α : Type) where
  id : Nat
  cid : Nat
  la : Action
  r : α
  w : List (List α)
  x : List (List α)

/-- `Target_::repr`, `target.hpp:200-206`, with `PF::repr`, `pf.hpp:168-173`. -/
def PTgt.repr (sh : α → Txt) (t : PTgt α) : Txt :=
  lit "{\"id\":" ++ (Nat.repr t.id).toList ++ lit ",\"cid\":" ++ (Nat.repr t.cid).toList ++
    lit ",\"la\":\"" ++ [t.la.char] ++ lit "\"" ++ lit ",\"r\":" ++ sh t.r ++ lit ",\"pdf\":" ++
    pfRepr sh t.w t.x ++ lit "}"

/-- `SILMB::repr`, `lmb.hpp:333-341`. -/
def ptrackerRepr (sh : α → Txt) (ts : List (PTgt α)) : Txt :=
  sepLoop (PTgt.repr sh) ts true (lit "{\"targets\":[") ++ lit "]}"

/-- A line of a log: the time, the scan and the targets. -/
abbrev PLine (α : Type) := α × List (Report α) × List (PTgt α)

/-- The line as text, `tests/crosstrack.cpp:39-42` with another tracker. -/
def PLine.txt (sh : α → Txt) (l : PLine α) : Txt :=
  lit "{\"t\":" ++ sh l.1 ++ lit ",\"scan\":" ++ reportsRepr sh l.2.1 ++ lit ",\"post\":" ++
    ptrackerRepr sh l.2.2 ++ lit "}"

/-! ## The text -/

/-- The value of a target. -/
def ptgtJ (sh : α → Txt) (t : PTgt α) : J :=
  .obj [kv "id" (natJ t.id), kv "cid" (natJ t.cid), kv "la" (.str [t.la.char]), kv "r" (.num (sh t.r)),
    kv "pdf" (.obj [kv "type" (.str "PF".toList), kv "w" (matJ sh t.w), kv "x" (matJ sh t.x)])]

/-- The value of a line. -/
def plineJ (sh : α → Txt) (l : PLine α) : J :=
  .obj [kv "t" (.num (sh l.1)), kv "scan" (.arr (l.2.1.map (reportJ sh))),
    kv "post" (.obj [kv "targets" (.arr (l.2.2.map (ptgtJ sh)))])]

theorem good_pf {sh : α → Txt} (hs : ∀ a, isNum (sh a) = true) (w x : List (List α)) :
    Good (pfRepr sh w x) (.obj [kv "type" (.str "PF".toList), kv "w" (matJ sh w), kv "x" (matJ sh x)]) := by
  have := good_obj [("type".toList, ('"' :: ("PF".toList ++ ['"'])), .str "PF".toList),
      ("w".toList, fmt sh w, matJ sh w), ("x".toList, fmt sh x, matJ sh x)]
    (by simp) (by
      simp only [List.mem_cons, List.not_mem_nil, or_false]
      rintro x (rfl | rfl | rfl)
      · exact ⟨rfl, good_str (by decide)⟩
      · exact ⟨rfl, good_mat hs _⟩
      · exact ⟨rfl, good_mat hs _⟩)
  simpa [pfRepr, kv, lit, commas, membTxt] using this

theorem good_ptgt {sh : α → Txt} (hs : ∀ a, isNum (sh a) = true) (t : PTgt α) :
    Good (t.repr sh) (ptgtJ sh t) := by
  have := good_obj [("id".toList, (Nat.repr t.id).toList, natJ t.id),
    ("cid".toList, (Nat.repr t.cid).toList, natJ t.cid),
    ("la".toList, ('"' :: ([t.la.char] ++ ['"'])), .str [t.la.char]),
    ("r".toList, sh t.r, .num (sh t.r)), ("pdf".toList, pfRepr sh t.w t.x,
      .obj [kv "type" (.str "PF".toList), kv "w" (matJ sh t.w), kv "x" (matJ sh t.x)])] (by simp) (by
      simp only [List.mem_cons, List.not_mem_nil, or_false]
      rintro x (rfl | rfl | rfl | rfl | rfl)
      · exact ⟨rfl, good_num (isNum_nat _)⟩
      · exact ⟨rfl, good_num (isNum_nat _)⟩
      · exact ⟨rfl, good_str (by cases t.la <;> decide)⟩
      · exact ⟨rfl, good_num (hs _)⟩
      · exact ⟨rfl, good_pf hs _ _⟩)
  simpa [PTgt.repr, ptgtJ, kv, lit, commas, membTxt] using this

theorem good_pline {sh : α → Txt} (hs : ∀ a, isNum (sh a) = true) (l : PLine α) :
    Good (l.txt sh) (plineJ sh l) := by
  have hscan : Good (reportsRepr sh l.2.1) (.arr (l.2.1.map (reportJ sh))) := by
    have := good_list hs (good_report hs) l.2.1
    simpa [reportsRepr, sepLoop_true, lit] using this
  have hpost : Good (ptrackerRepr sh l.2.2) (.obj [kv "targets" (.arr (l.2.2.map (ptgtJ sh)))]) := by
    have := good_obj [("targets".toList, '[' :: (commas (l.2.2.map (PTgt.repr sh)) ++ [']']),
      .arr (l.2.2.map (ptgtJ sh)))] (by simp) (by
        simp only [List.mem_cons, List.not_mem_nil, or_false]
        rintro x rfl
        exact ⟨rfl, good_list hs (good_ptgt hs) l.2.2⟩)
    simpa [ptrackerRepr, sepLoop_true, kv, lit, commas, membTxt] using this
  have := good_obj [("t".toList, sh l.1, .num (sh l.1)),
    ("scan".toList, reportsRepr sh l.2.1, .arr (l.2.1.map (reportJ sh))),
    ("post".toList, ptrackerRepr sh l.2.2, .obj [kv "targets" (.arr (l.2.2.map (ptgtJ sh)))])] (by simp) (by
      simp only [List.mem_cons, List.not_mem_nil, or_false]
      rintro x (rfl | rfl | rfl)
      · exact ⟨rfl, good_num (hs _)⟩
      · exact ⟨rfl, hscan⟩
      · exact ⟨rfl, hpost⟩)
  simpa [PLine.txt, plineJ, kv, lit, commas, membTxt] using this

/-! ## What is read back -/

/-- A matrix with its numbers as they are read. -/
def matOf (rd : Txt → β) (sh : α → Txt) (m : List (List α)) : List (List β) :=
  m.map (·.map fun a => rd (sh a))

/-- A state of a target with its numbers as they are read. -/
def pentryOf (rd : Txt → β) (sh : α → Txt) (t : PTgt α) : Entry β :=
  ⟨[t.la.char], rd (sh t.r), .pf (matOf rd sh t.w) (matOf rd sh t.x)⟩

theorem readPdf_pf (rd : Txt → β) (sh : α → Txt) (w x : List (List α)) :
    readPdf rd (.obj [kv "type" (.str "PF".toList), kv "w" (matJ sh w), kv "x" (matJ sh x)]) =
      some (.pf (matOf rd sh w) (matOf rd sh x)) := by
  have h1 : key "type" (.obj [kv "type" (.str "PF".toList), kv "w" (matJ sh w), kv "x" (matJ sh x)]) =
    some (.str "PF".toList) := rfl
  have h2 : key "w" (.obj [kv "type" (.str "PF".toList), kv "w" (matJ sh w), kv "x" (matJ sh x)]) =
    some (matJ sh w) := rfl
  have h3 : key "x" (.obj [kv "type" (.str "PF".toList), kv "w" (matJ sh w), kv "x" (matJ sh x)]) =
    some (matJ sh x) := rfl
  simp only [readPdf, h1, h2, h3, Option.bind_eq_bind, Option.bind_some, asStr, asMat_matJ]
  rw [if_neg (by decide), if_pos (by decide)]
  rfl

/-- What the dictionary holds after the states of `done` have been read. -/
def pheld (rd : Txt → β) (sh : α → Txt) (done : List (PTgt α)) (i : Nat) : Option (Target β) :=
  match (done.filter (·.id == i)).getLast? with
  | none => none
  | some t => some ⟨i, some t.cid, some (rd (sh t.r)), (done.filter (·.id == i)).map (pentryOf rd sh)⟩

theorem addT_ptgtJ (rd : Txt → β) (sh : α → Txt) (done : List (PTgt α)) (t : PTgt α) :
    addT rd (pheld rd sh done) (ptgtJ sh t) = some (pheld rd sh (done ++ [t])) := by
  have h1 : key "id" (ptgtJ sh t) = some (natJ t.id) := rfl
  have h2 : key "cid" (ptgtJ sh t) = some (natJ t.cid) := rfl
  have h3 : key "la" (ptgtJ sh t) = some (.str [t.la.char]) := rfl
  have h4 : key "r" (ptgtJ sh t) = some (.num (sh t.r)) := rfl
  have h5 : key "pdf" (ptgtJ sh t) =
    some (.obj [kv "type" (.str "PF".toList), kv "w" (matJ sh t.w), kv "x" (matJ sh t.x)]) := rfl
  simp only [addT, Target.addState, h1, h2, h3, h4, h5, Option.bind_eq_bind, Option.bind_some,
    asNat_natJ, readPdf_pf, asNum, asStr, pure]
  congr 1
  funext i
  by_cases hi : i = t.id
  · subst hi
    rw [if_pos rfl]
    have hf : (done ++ [t]).filter (·.id == t.id) = done.filter (·.id == t.id) ++ [t] := by
      rw [List.filter_append]
      simp
    have hl : ((done ++ [t]).filter (·.id == t.id)).getLast? = some t := by
      rw [hf, List.getLast?_append]
      rfl
    have hr : pheld rd sh (done ++ [t]) t.id = some ⟨t.id, some t.cid, some (rd (sh t.r)),
        (done.filter (·.id == t.id)).map (pentryOf rd sh) ++ [pentryOf rd sh t]⟩ := by
      unfold pheld
      rw [hl]
      simp only
      rw [hf, List.map_append]
      rfl
    rw [hr]
    congr 1
    unfold pheld
    cases hd : (done.filter (·.id == t.id)).getLast? with
    | none =>
      rw [List.getLast?_eq_none_iff] at hd
      rw [hd]
      rfl
    | some s => rfl
  · rw [if_neg hi]
    have hf : (done ++ [t]).filter (·.id == i) = done.filter (·.id == i) := by
      rw [List.filter_append]
      have : [t].filter (·.id == i) = [] := by
        simp [Ne.symm hi]
      rw [this, List.append_nil]
    unfold pheld
    rw [hf]

theorem paddAll (rd : Txt → β) (sh : α → Txt) : ∀ (ts done : List (PTgt α)),
    (ts.map (ptgtJ sh)).foldlM (addT rd) (pheld rd sh done) = some (pheld rd sh (done ++ ts)) := by
  intro ts
  induction ts with
  | nil => intro done; simp
  | cons t ts ih =>
    intro done
    rw [List.map_cons, List.foldlM_cons, addT_ptgtJ]
    simp only [Option.bind_eq_bind, Option.bind_some]
    rw [ih, List.append_assoc, List.singleton_append]

/-! ## The means -/

variable [AddCommMonoid β] [Mul β]

/-- The sum of the products of the weights and the entries of a row, as they are read. -/
def prow (rd : Txt → β) (sh : α → Txt) (k : Nat) (t : PTgt α) : β :=
  (List.zipWith (fun a b => rd (sh a) * rd (sh b)) (t.w.headD []) (t.x.getD k [])).sum

/-- The shape of the particles of the tracker `SILMB<PF<4>>`: one row of weights, four rows of states as long
as that. -/
def Shape (t : PTgt α) : Prop :=
  ∃ w x0 x1 x2 x3, t.w = [w] ∧ t.x = [x0, x1, x2, x3] ∧ x0.length = w.length ∧ x1.length = w.length ∧
    x2.length = w.length ∧ x3.length = w.length

theorem rowSum_eq (rd : Txt → β) (sh : α → Txt) : ∀ w x : List α, x.length = w.length →
    rowSum (w.map fun a => rd (sh a)) (x.map fun a => rd (sh a)) =
      some (List.zipWith (fun a b => rd (sh a) * rd (sh b)) w x).sum := by
  intro w
  induction w with
  | nil =>
    intro x hx
    obtain rfl := List.length_eq_zero_iff.1 hx
    rfl
  | cons a w ih =>
    intro x hx
    cases x with
    | nil => simp at hx
    | cons b x =>
      simp only [List.map_cons, rowSum, ih x (by simpa using hx), Option.map_some, List.zipWith_cons_cons,
        List.sum_cons]

theorem mean_shape (rd : Txt → β) (sh : α → Txt) {t : PTgt α} (h : Shape t) :
    mean (.pf (matOf rd sh t.w) (matOf rd sh t.x)) =
      some [prow rd sh 0 t, prow rd sh 1 t, prow rd sh 2 t, prow rd sh 3 t] := by
  obtain ⟨w, x0, x1, x2, x3, hw, hx, h0, h1, h2, h3⟩ := h
  simp only [matOf, hw, hx, List.map_cons, List.map_nil, mean, rowSum_eq rd sh _ _ h0, rowSum_eq rd sh _ _ h1,
    rowSum_eq rd sh _ _ h2, rowSum_eq rd sh _ _ h3, Option.bind_eq_bind, Option.bind_some]
  simp only [prow, hw, hx]
  rfl

/-- The point of the figure for a state. -/
def ppoint (rd : Txt → β) (sh : α → Txt) (t : PTgt α) : β × β := (prow rd sh 0 t, prow rd sh 1 t)

theorem plotTrace_pheld (rd : Txt → β) (sh : α → Txt) {done : List (PTgt α)}
    (h4 : ∀ t ∈ done, Shape t) {t : PTgt α} (ht : t ∈ done) :
    (pheld rd sh done t.id).bind plotTrace =
      some ⟨t.id, (done.filter (·.id == t.id)).map (ppoint rd sh),
        (done.filter (·.id == t.id)).getLast?.map fun s => rd (sh s.r)⟩ := by
  unfold pheld
  cases hd : (done.filter (·.id == t.id)).getLast? with
  | none =>
    rw [List.getLast?_eq_none_iff, List.filter_eq_nil_iff] at hd
    exact absurd (beq_self_eq_true t.id) (hd t ht)
  | some s =>
    simp only [Option.bind_some, plotTrace]
    rw [mapM_map (δ := β) _ (pentryOf rd sh) (ppoint rd sh)]
    · rfl
    · intro u hu
      have := mean_shape rd sh (h4 u (List.mem_filter.1 hu).1)
      simp only [pentryOf, this, Option.bind_eq_bind, Option.bind_some]
      rfl

/-! ## The lines -/

/-- The figure of line `k`: for every target in the line, in order, the points of its states so far, oldest first,
and the last of its probabilities of existence. -/
def pfigure (rd : Txt → β) (sh : α → Txt) (log : List (PLine α)) (k : Nat) : List (Trace β) :=
  ((log[k]?.map fun l => l.2.2).getD []).map fun t =>
    ⟨t.id, (((log.take (k + 1)).flatMap fun l => l.2.2).filter (·.id == t.id)).map (ppoint rd sh),
      (((log.take (k + 1)).flatMap fun l => l.2.2).filter (·.id == t.id)).getLast?.map fun s => rd (sh s.r)⟩

theorem pdrawLoop_spec {sh : α → Txt} (hs : ∀ a, isNum (sh a) = true) (rd : Txt → β) :
    ∀ (rest pre : List (PLine α)), (∀ l ∈ pre ++ rest, ∀ t ∈ l.2.2, Shape t) →
      pre.length + rest.length ≤ 12 → ∃ F, ∀ n, F ≤ n →
        drawLoop n rd (rest.map (PLine.txt sh)) pre.length
          (pheld rd sh (pre.flatMap fun l => l.2.2)) =
        some ((List.range rest.length).map fun j => pfigure rd sh (pre ++ rest) (pre.length + j)) := by
  intro rest
  induction rest with
  | nil => exact fun pre _ _ => ⟨0, fun n _ => by simp [drawLoop]⟩
  | cons l rest ih =>
    intro pre h4 hlen
    rw [List.length_cons] at hlen
    obtain ⟨F, hF⟩ := ih (pre ++ [l]) (by simpa using h4) (by simp; omega)
    obtain ⟨G, hG⟩ := (good_pline hs l).whole
    refine ⟨F + G, fun n hn => ?_⟩
    have hF := hF n (by omega)
    have hG : loads n (l.txt sh) = some (plineJ sh l) := by rw [loads, hG n (by omega)]
    have k1 : key "post" (plineJ sh l) = some (.obj [kv "targets" (.arr (l.2.2.map (ptgtJ sh)))]) := rfl
    have k2 : key "targets" (.obj [kv "targets" (.arr (l.2.2.map (ptgtJ sh)))]) =
      some (.arr (l.2.2.map (ptgtJ sh))) := rfl
    have k3 : key "t" (plineJ sh l) = some (.num (sh l.1)) := rfl
    have hd : (pre ++ [l]).flatMap (fun l => l.2.2) = (pre.flatMap fun l => l.2.2) ++ l.2.2 := by
      simp
    have hfig : (l.2.2.map (ptgtJ sh)).mapM (fun t =>
        (key "id" t).bind fun j => (asNat j).bind fun i =>
          (pheld rd sh ((pre.flatMap fun l => l.2.2) ++ l.2.2) i).bind plotTrace) =
        some (pfigure rd sh (pre ++ l :: rest) pre.length) := by
      have hget : (pre ++ l :: rest)[pre.length]? = some l := by simp
      have htake : (pre ++ l :: rest).take (pre.length + 1) = pre ++ [l] := by
        rw [show pre ++ l :: rest = (pre ++ [l]) ++ rest by simp]
        exact List.take_left' (by simp)
      rw [pfigure, hget, htake]
      simp only [Option.map_some, Option.getD_some]
      apply mapM_map (δ := β)
      intro t ht
      have k4 : key "id" (ptgtJ sh t) = some (natJ t.id) := rfl
      rw [k4, Option.bind_some, asNat_natJ, Option.bind_some, plotTrace_pheld rd sh ?_ ?_]
      · rw [hd]
      · intro u hu
        rcases List.mem_append.1 hu with hu | hu
        · obtain ⟨m, hm, hum⟩ := List.mem_flatMap.1 hu
          exact h4 m (by simp [hm]) u hum
        · exact h4 l (by simp) u hu
      · simp [ht]
    rw [List.map_cons, drawLoop]
    simp only [hG, k1, k2, k3, Option.bind_eq_bind, Option.bind_some, asArr, paddAll]
    rw [if_neg (by omega)]
    simp only [hfig, pure, Option.bind_some]
    rw [hd, List.length_append, List.length_singleton] at hF
    rw [hF, Option.bind_some, List.length_cons, List.range_succ_eq_map, List.map_cons, List.map_map]
    congr 2
    apply List.map_congr_left
    intro j _
    simp only [Function.comp_apply]
    rw [List.append_assoc, List.singleton_append]
    congr 1
    omega

/-- C123: a log of at most twelve lines, written by a tracker with particles, is drawn: figure `k` shows for each
target of line `k` the track through all its states up to that line, oldest first, and no states of other targets;
the point of a state is the sum of the products of weights and states, with the numbers as they were read. -/
theorem C123_log {sh : α → Txt} (hs : ∀ a, isNum (sh a) = true) (rd : Txt → β)
    (log : List (PLine α)) (h4 : ∀ l ∈ log, ∀ t ∈ l.2.2, Shape t) (hlen : log.length ≤ 12) :
    ∃ F, ∀ n, F ≤ n → draw n rd (log.map (PLine.txt sh)) =
      some ((List.range log.length).map (pfigure rd sh log)) := by
  obtain ⟨F, hF⟩ := pdrawLoop_spec hs rd log [] (by simpa using h4) (by simpa using hlen)
  refine ⟨F, fun n hn => ?_⟩
  have := hF n hn
  simp only [List.length_nil, List.nil_append, Nat.zero_add, List.flatMap_nil] at this
  exact this

/-! ## The numbers -/

omit [AddCommMonoid β] [Mul β]

/-- At least fifteen digits for both factors. -/
theorem prod_err15 {w x : FNum} (hw : 14 ≤ w.1.1) (hx : 14 ≤ x.1.1) :
    |rdReal w.txt * rdReal x.txt - w.real * x.real| ≤ 11 / 10 ^ 15 * |w.real * x.real| := by
  have h : ∀ {y : FNum}, 14 ≤ y.1.1 → |rdReal y.txt - y.real| ≤ |y.real| / (2 * 10 ^ 14) := by
    intro y hy
    refine (read_err y).trans ?_
    have : (10 : ℝ) ^ 14 ≤ 10 ^ y.1.1 := pow_le_pow_right₀ (by norm_num) hy
    gcongr
  have h1 := h hw
  have h2 := h hx
  generalize rdReal w.txt = a at *
  generalize rdReal x.txt = b at *
  generalize w.real = u at *
  generalize x.real = v at *
  have e : a * b - u * v = (a - u) * (b - v) + (a - u) * v + u * (b - v) := by ring
  have g0 := abs_nonneg u
  have g1 := abs_nonneg v
  calc |a * b - u * v| ≤ |a - u| * |b - v| + |a - u| * |v| + |u| * |b - v| := by
        rw [e, ← abs_mul, ← abs_mul, ← abs_mul]
        exact (abs_add_le _ _).trans (add_le_add_left (abs_add_le _ _) _)
    _ ≤ |u| / (2 * 10 ^ 14) * (|v| / (2 * 10 ^ 14)) + |u| / (2 * 10 ^ 14) * |v| + |u| * (|v| / (2 * 10 ^ 14)) := by
        gcongr
    _ = (1 / (4 * 10 ^ 28) + 1 / (2 * 10 ^ 14) + 1 / (2 * 10 ^ 14)) * (|u| * |v|) := by ring
    _ ≤ 11 / 10 ^ 15 * |u * v| := by
        rw [abs_mul]
        gcongr
        norm_num

/-- The target is written from these particles: a row of the weights, and a row for each of the states; and with at
least fifteen digits, `pf.hpp:170-171`, `constants.hpp:6`. -/
def WrittenFrom (t : PTgt FNum) (c : List Particles.Part) : Prop :=
  t.w.map (·.map FNum.real) = [c.map fun g => g.w] ∧
  t.x.map (·.map FNum.real) = [c.map fun g => g.x 0, c.map fun g => g.x 1, c.map fun g => g.x 2, c.map fun g => g.x 3] ∧
  ∀ r ∈ t.w ++ t.x, ∀ a ∈ r, 14 ≤ a.1.1

theorem row_err (k : Fin 4) : ∀ (c : List Particles.Part) (w x : List FNum),
    w.map FNum.real = (c.map fun g => g.w) → x.map FNum.real = (c.map fun g => g.x k) →
    (∀ a ∈ w, 14 ≤ a.1.1) → (∀ a ∈ x, 14 ≤ a.1.1) →
    |(List.zipWith (fun a b => rdReal a.txt * rdReal b.txt) w x).sum - (c.map fun g => g.w * g.x k).sum| ≤
      11 / 10 ^ 15 * (c.map fun g => |g.w * g.x k|).sum := by
  intro c
  induction c with
  | nil =>
    intro w x hw hx _ _
    obtain rfl := List.map_eq_nil_iff.1 hw
    simp
  | cons g c ih =>
    intro w x hw hx dw dx
    cases w with
    | nil => simp at hw
    | cons a w =>
      cases x with
      | nil => simp at hx
      | cons b x =>
        simp only [List.map_cons, List.cons.injEq] at hw hx
        have h1 := ih w x hw.2 hx.2 (fun a ha => dw a (by simp [ha])) (fun a ha => dx a (by simp [ha]))
        have h2 := prod_err15 (dw a (by simp)) (dx b (by simp))
        rw [hw.1, hx.1] at h2
        simp only [List.zipWith_cons_cons, List.map_cons, List.sum_cons]
        rw [add_sub_add_comm, mul_add]
        exact (abs_add_le _ _).trans (add_le_add h2 h1)

theorem WrittenFrom.rows {t : PTgt FNum} {c : List Particles.Part} (h : WrittenFrom t c) :
    ∃ w x0 x1 x2 x3, t.w = [w] ∧ t.x = [x0, x1, x2, x3] ∧ w.map FNum.real = (c.map fun g => g.w) ∧
      x0.map FNum.real = (c.map fun g => g.x 0) ∧ x1.map FNum.real = (c.map fun g => g.x 1) ∧
      x2.map FNum.real = (c.map fun g => g.x 2) ∧ x3.map FNum.real = (c.map fun g => g.x 3) := by
  obtain ⟨h1, h2, _⟩ := h
  rw [List.map_eq_singleton_iff] at h1
  obtain ⟨w, hw, hw'⟩ := h1
  match hx : t.x, h2 with
  | [x0, x1, x2, x3], h2 =>
    simp only [List.map_cons, List.map_nil, List.cons.injEq, and_true] at h2
    exact ⟨w, x0, x1, x2, x3, hw, rfl, hw', h2.1, h2.2.1, h2.2.2.1, h2.2.2.2⟩
  | [], h2 => simp at h2
  | [_], h2 => simp at h2
  | [_, _], h2 => simp at h2
  | [_, _, _], h2 => simp at h2
  | _ :: _ :: _ :: _ :: _ :: _, h2 => simp at h2

theorem WrittenFrom.shape {t : PTgt FNum} {c : List Particles.Part} (h : WrittenFrom t c) : Shape t := by
  obtain ⟨w, x0, x1, x2, x3, hw, hx, gw, g0, g1, g2, g3⟩ := h.rows
  have l : ∀ {y : List FNum} {f : Particles.Part → ℝ}, y.map FNum.real = c.map f → y.length = w.length := by
    intro y f hy
    have h1 := congrArg List.length hy
    have h2 := congrArg List.length gw
    rw [List.length_map, List.length_map] at h1 h2
    rw [h1, h2]
  exact ⟨w, x0, x1, x2, x3, hw, hx, l g0, l g1, l g2, l g3⟩

theorem WrittenFrom.err {t : PTgt FNum} {c : List Particles.Part} (h : WrittenFrom t c) :
    |(ppoint rdReal FNum.txt t).1 - Particles.mean c 0| ≤ 11 / 10 ^ 15 * (c.map fun g => |g.w * g.x 0|).sum ∧
    |(ppoint rdReal FNum.txt t).2 - Particles.mean c 1| ≤ 11 / 10 ^ 15 * (c.map fun g => |g.w * g.x 1|).sum := by
  obtain ⟨w, x0, x1, x2, x3, hw, hx, gw, g0, g1, _⟩ := h.rows
  have hm : ∀ k, Particles.mean c k = (c.map fun g => g.w * g.x k).sum := by
    intro k
    unfold Particles.mean
    induction c with
    | nil => rfl
    | cons g c ih =>
      clear h gw g0 g1
      have : ∀ l : List Particles.Part, ((l.map fun g => g.w • g.x).sum : Particles.X) k =
          (l.map fun g => g.w * g.x k).sum := by
        intro l
        induction l with
        | nil => rfl
        | cons a l ih => simp only [List.map_cons, List.sum_cons, Pi.add_apply, Pi.smul_apply, smul_eq_mul, ih]
      exact this _
  have hd := h.2.2
  rw [hw, hx] at hd
  have dw : ∀ a ∈ w, 14 ≤ a.1.1 := fun a ha => hd w (by simp) a ha
  have e0 : (ppoint rdReal FNum.txt t).1 =
      (List.zipWith (fun a b => rdReal a.txt * rdReal b.txt) w x0).sum := by
    simp only [ppoint, prow, hw, hx]; rfl
  have e1 : (ppoint rdReal FNum.txt t).2 =
      (List.zipWith (fun a b => rdReal a.txt * rdReal b.txt) w x1).sum := by
    simp only [ppoint, prow, hw, hx]; rfl
  rw [e0, e1, hm, hm]
  exact ⟨row_err 0 c w x0 gw g0 dw fun a ha => hd x0 (by simp) a ha,
    row_err 1 c w x1 gw g1 dw fun a ha => hd x1 (by simp) a ha⟩

theorem filter_id {l : List (PTgt α)} (hnd : (l.map (·.id)).Nodup) {t : PTgt α} (hm : t ∈ l) :
    l.filter (·.id == t.id) = [t] := by
  induction l with
  | nil => cases hm
  | cons a l ih =>
    rw [List.map_cons, List.nodup_cons] at hnd
    rcases List.mem_cons.1 hm with rfl | h
    · have : l.filter (·.id == t.id) = [] := by
        rw [List.filter_eq_nil_iff]
        intro u hu he
        exact hnd.1 (List.mem_map.2 ⟨u, hu, by simpa using he⟩)
      simp [this]
    · have hne : a.id ≠ t.id := fun he => hnd.1 (List.mem_map.2 ⟨t, h, he.symm⟩)
      simp [hne, ih hnd.2 h]

/-- **C123, tracks.** A log of at most twelve lines of a tracker with particles is drawn.  Every target of a line has a
track in the line's figure, with a point for each of its states so far, oldest first.  The point is the mean of the
particles to within `1.1·10⁻¹⁴` of the sum of the weighted coordinates' absolute values.  The number at a track is the
probability of existence to within `5·10⁻⁶` of it. -/
theorem C123_tracks (log : List (PLine FNum)) (part : PTgt FNum → List Particles.Part)
    (hp : ∀ l ∈ log, ∀ t ∈ l.2.2, WrittenFrom t (part t) ∧ t.r.1.1 = 5) (hlen : log.length ≤ 12) :
    ∃ F, ∀ n, F ≤ n → ∃ figs, draw n rdReal (log.map (PLine.txt FNum.txt)) = some figs ∧
      figs.length = log.length ∧ ∀ (k : Nat) (l : PLine FNum), log[k]? = some l → ∃ fig, figs[k]? = some fig ∧
        fig.length = l.2.2.length ∧ ∀ (j : Nat) (t : PTgt FNum), l.2.2[j]? = some t → ∃ tr, fig[j]? = some tr ∧
          tr.c = t.id ∧
          List.Forall₂ (fun pt s =>
              |pt.1 - Particles.mean (part s) 0| ≤ 11 / 10 ^ 15 * ((part s).map fun g => |g.w * g.x 0|).sum ∧
              |pt.2 - Particles.mean (part s) 1| ≤ 11 / 10 ^ 15 * ((part s).map fun g => |g.w * g.x 1|).sum)
            tr.pts (((log.take (k + 1)).flatMap fun l => l.2.2).filter (·.id == t.id)) ∧
          ((l.2.2.map (·.id)).Nodup → ∃ x, tr.text = some x ∧ |x - t.r.real| ≤ |t.r.real| / (2 * 10 ^ 5)) := by
  obtain ⟨F, hF⟩ := C123_log (sh := FNum.txt) (fun a => (C122_read a.1 a.2).1) rdReal log
    (fun l hl t ht => (hp l hl t ht).1.shape) hlen
  refine ⟨F, fun n hn => ⟨_, hF n hn, by simp, fun k l hl => ?_⟩⟩
  have hk : k < log.length := (List.getElem?_eq_some_iff.1 hl).1
  refine ⟨pfigure rdReal FNum.txt log k, by simp [List.getElem?_map, List.getElem?_range hk], by simp [pfigure, hl],
    fun j t ht => ?_⟩
  refine ⟨⟨t.id, (((log.take (k + 1)).flatMap fun l => l.2.2).filter (·.id == t.id)).map (ppoint rdReal FNum.txt),
      (((log.take (k + 1)).flatMap fun l => l.2.2).filter (·.id == t.id)).getLast?.map fun s => rdReal s.r.txt⟩,
    ?_, rfl, ?_, fun hnd => ?_⟩
  · rw [pfigure, hl]
    simp [ht]
  · show List.Forall₂ _ ((((log.take (k + 1)).flatMap fun l => l.2.2).filter (·.id == t.id)).map
      (ppoint rdReal FNum.txt)) _
    rw [List.forall₂_map_left_iff, List.forall₂_same]
    intro s hs
    obtain ⟨l', hl', hs'⟩ := List.mem_flatMap.1 (List.mem_filter.1 hs).1
    exact (hp l' (List.mem_of_mem_take hl') s hs').1.err
  · have hlk : log[k] = l := (List.getElem?_eq_some_iff.1 hl).2
    have hlast : (((log.take (k + 1)).flatMap fun l => l.2.2).filter (·.id == t.id)).getLast? = some t := by
      rw [List.take_succ_eq_append_getElem hk, hlk, List.flatMap_append, List.filter_append, List.getLast?_append]
      simp [filter_id hnd (List.mem_of_getElem? ht)]
    refine ⟨rdReal t.r.txt, by rw [hlast]; rfl, ?_⟩
    have := read_err t.r
    rw [(hp l (List.mem_of_getElem? hl) t (List.mem_of_getElem? ht)).2] at this
    exact this

/-! ## Examples -/

/-- Two particles of weight 1/2. -/
noncomputable def exParts : List Particles.Part := [⟨![58, 15, 0, 0], 1 / 2⟩, ⟨![60, 16, 0, 1], 1 / 2⟩]

/-- The target with these particles, as it is written. -/
def exPf : PTgt FNum := ⟨1, 7, .correct, ⟨(5, .fin (7 / 9)), rfl⟩,
  [[⟨(14, .fin (1 / 2)), rfl⟩, ⟨(14, .fin (1 / 2)), rfl⟩]],
  [[⟨(14, .fin 58), rfl⟩, ⟨(14, .fin 60), rfl⟩], [⟨(14, .fin 15), rfl⟩, ⟨(14, .fin 16), rfl⟩],
    [⟨(14, .fin 0), rfl⟩, ⟨(14, .negZero), rfl⟩], [⟨(14, .fin 0), rfl⟩, ⟨(14, .fin 1), rfl⟩]]⟩

theorem exPf_written : WrittenFrom exPf exParts := by
  refine ⟨by simp [exPf, exParts, FNum.real, Dbl.val], by simp [exPf, exParts, FNum.real, Dbl.val], ?_⟩
  intro r hr a ha
  simp only [exPf, List.mem_append, List.mem_cons, List.not_mem_nil, or_false] at hr
  rcases hr with rfl | rfl | rfl | rfl | rfl <;>
  · simp only [List.mem_cons, List.not_mem_nil, or_false] at ha
    rcases ha with rfl | rfl <;> exact le_refl _

/-- Two lines of a log with this target. -/
def exPLog : List (PLine FNum) := [(⟨(5, .fin 0), rfl⟩, [], [exPf]), (⟨(5, .fin 1), rfl⟩, [], [exPf])]

theorem exPLog_eq {l : PLine FNum} (hl : l ∈ exPLog) {t : PTgt FNum} (ht : t ∈ l.2.2) : t = exPf := by
  simp only [exPLog, List.mem_cons, List.not_mem_nil, or_false] at hl
  rcases hl with rfl | rfl <;> exact List.mem_singleton.1 ht

example : ∃ F, ∀ n, F ≤ n → ∃ figs, draw n rdReal (exPLog.map (PLine.txt FNum.txt)) = some figs ∧
    figs.length = exPLog.length := by
  obtain ⟨F, hF⟩ := C123_tracks exPLog (fun _ => exParts)
    (fun l hl t ht => by rw [exPLog_eq hl ht]; exact ⟨exPf_written, rfl⟩) (by simp [exPLog])
  exact ⟨F, fun n hn => let ⟨figs, h1, h2, _⟩ := hF n hn; ⟨figs, h1, h2⟩⟩

example : ∃ F, ∀ n, F ≤ n → draw n rdReal (exPLog.map (PLine.txt FNum.txt)) =
    some ((List.range exPLog.length).map (pfigure rdReal FNum.txt exPLog)) :=
  C123_log (sh := FNum.txt) (fun a => (C122_read a.1 a.2).1) rdReal exPLog
    (fun l hl t ht => by rw [exPLog_eq hl ht]; exact exPf_written.shape) (by simp [exPLog])

/-! ## Other shapes -/

section
variable {β : Type} [Zero β] [Add β] [Mul β]

theorem rowSum_len : ∀ (w x : List β) (s : β), rowSum w x = some s → x.length = w.length := by
  intro w
  induction w with
  | nil =>
    intro x s h
    cases x with
    | nil => rfl
    | cons a l => cases h
  | cons a l ih =>
    intro x s h
    cases x with
    | nil => cases h
    | cons b m =>
      rw [rowSum, Option.map_eq_some_iff] at h
      obtain ⟨y, hy, _⟩ := h
      simp [ih m y hy]

/-- C123, other shapes: weights and states of different numbers, both more than one, are not drawn: the product
of a row of weights and of a row of states of another length raises an exception in numpy. -/
theorem C123_shapes (w x0 x1 x2 x3 : List β) (_hw : 1 < w.length) (_h1 : ∀ x ∈ [x0, x1, x2, x3], 1 < x.length)
    (h : ∃ x ∈ [x0, x1, x2, x3], x.length ≠ w.length) : mean (.pf [w] [x0, x1, x2, x3]) = none := by
  obtain ⟨x, hx, hn⟩ := h
  rw [Option.eq_none_iff_forall_not_mem]
  intro l hl
  simp only [mean, Option.mem_def, Option.bind_eq_bind, Option.bind_eq_some_iff] at hl
  obtain ⟨a, ha, b, hb, c, hc, d, hd, _⟩ := hl
  simp only [List.mem_cons, List.not_mem_nil, or_false] at hx
  rcases hx with rfl | rfl | rfl | rfl
  · exact hn (rowSum_len _ _ _ ha)
  · exact hn (rowSum_len _ _ _ hb)
  · exact hn (rowSum_len _ _ _ hc)
  · exact hn (rowSum_len _ _ _ hd)

example : mean (.pf [[(1 : ℚ), 2]] [[1, 2, 3], [1, 2, 3], [1, 2, 3], [1, 2, 3]]) = none :=
  C123_shapes _ _ _ _ _ (by decide) (by decide) ⟨[1, 2, 3], by decide, by decide⟩
end

end Verif.Plot
