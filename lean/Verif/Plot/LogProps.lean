import Mathlib.Tactic.Linarith
import Mathlib.Tactic.Ring
import Mathlib.Tactic.NormNum
import Mathlib.Data.List.Nodup
import Mathlib.Data.Real.Basic
import Verif.Json.Props
import Verif.Plot.Log

/-! # C85: the tracks drawn from a log are the tracks of the tracker -/

namespace Verif.Plot

open Verif.Json

variable {α β : Type}

/-! ## What is read back -/

/-- A component with its numbers as they are read. -/
def compOf (rd : Txt → β) (sh : α → Txt) (g : Gauss α) : Comp β :=
  ⟨rd (sh g.w), g.x.map (·.map fun a => rd (sh a)), g.P.map (·.map fun a => rd (sh a))⟩

/-- A state of a target with its numbers as they are read. -/
def entryOf (rd : Txt → β) (sh : α → Txt) (t : Tgt α) : Entry β :=
  ⟨[t.la.char], rd (sh t.r), .gm (t.c.map (compOf rd sh))⟩

theorem mapM_map {γ δ : Type} (f : β → Option γ) (g : α → β) (h : α → γ) :
    ∀ l : List α, (∀ a ∈ l, f (g a) = some (h a)) → (l.map g).mapM f = some (l.map h) := by
  intro l
  induction l with
  | nil => intro _; rfl
  | cons a l ih =>
    intro hl
    rw [List.map_cons, List.mapM_cons, hl a (by simp), ih fun b hb => hl b (by simp [hb])]
    rfl

theorem asMat_matJ (rd : Txt → β) (sh : α → Txt) (m : List (List α)) :
    asMat rd (matJ sh m) = some (m.map (·.map fun a => rd (sh a))) := by
  simp only [asMat, matJ, asArr, Option.bind_eq_bind, Option.bind_some]
  apply mapM_map (δ := β)
  intro r _
  simp only [asArr, Option.bind_some]
  exact mapM_map (δ := β) _ _ _ r fun a _ => rfl

theorem readComp_gaussJ (rd : Txt → β) (sh : α → Txt) (g : Gauss α) :
    readComp rd (gaussJ sh g) = some (compOf rd sh g) := by
  have h1 : key "w" (gaussJ sh g) = some (.num (sh g.w)) := rfl
  have h2 : key "x" (gaussJ sh g) = some (matJ sh g.x) := rfl
  have h3 : key "P" (gaussJ sh g) = some (matJ sh g.P) := rfl
  simp only [readComp, h1, h2, h3, Option.bind_eq_bind, Option.bind_some, asMat_matJ, asNum]
  rfl

theorem readPdf_gmJ (rd : Txt → β) (sh : α → Txt) (c : List (Gauss α)) :
    readPdf rd (gmJ sh c) = some (.gm (c.map (compOf rd sh))) := by
  have h1 : key "type" (gmJ sh c) = some (.str ['G', 'M']) := rfl
  have h2 : key "c" (gmJ sh c) = some (.arr (c.map (gaussJ sh))) := rfl
  simp only [readPdf, h1, h2, Option.bind_eq_bind, Option.bind_some, asStr, asArr]
  rw [if_pos (show (['G', 'M'] == "GM".toList) = true by decide),
    mapM_map (δ := β) (readComp rd) (gaussJ sh) (compOf rd sh) c fun g _ => readComp_gaussJ rd sh g]
  rfl

theorem asNat_natJ (n : Nat) : asNat (natJ n) = some n := by
  show (String.ofList (Nat.repr n).toList).toNat? = some n
  rw [String.ofList_toList, Nat.toNat?_repr]

/-- What the dictionary holds after the states of `done` have been read. -/
def held (rd : Txt → β) (sh : α → Txt) (done : List (Tgt α)) (i : Nat) : Option (Target β) :=
  match (done.filter (·.id == i)).getLast? with
  | none => none
  | some t => some ⟨i, some t.cid, some (rd (sh t.r)), (done.filter (·.id == i)).map (entryOf rd sh)⟩

theorem addT_tgtJ (rd : Txt → β) (sh : α → Txt) (done : List (Tgt α)) (t : Tgt α) :
    addT rd (held rd sh done) (tgtJ sh t) = some (held rd sh (done ++ [t])) := by
  have h1 : key "id" (tgtJ sh t) = some (natJ t.id) := rfl
  have h2 : key "cid" (tgtJ sh t) = some (natJ t.cid) := rfl
  have h3 : key "la" (tgtJ sh t) = some (.str [t.la.char]) := rfl
  have h4 : key "r" (tgtJ sh t) = some (.num (sh t.r)) := rfl
  have h5 : key "pdf" (tgtJ sh t) = some (gmJ sh t.c) := rfl
  simp only [addT, Target.addState, h1, h2, h3, h4, h5, Option.bind_eq_bind, Option.bind_some,
    asNat_natJ, readPdf_gmJ, asNum, asStr, pure]
  congr 1
  funext i
  by_cases hi : i = t.id
  · subst hi
    rw [if_pos rfl]
    have hf : (done ++ [t]).filter (·.id == t.id) = done.filter (·.id == t.id) ++ [t] := by
      rw [List.filter_append]
      simp
    have hl : ((done ++ [t]).filter (·.id == t.id)).getLast? = some t := by
      rw [hf, List.getLast?_append]
      rfl
    have hr : held rd sh (done ++ [t]) t.id = some ⟨t.id, some t.cid, some (rd (sh t.r)),
        (done.filter (·.id == t.id)).map (entryOf rd sh) ++ [entryOf rd sh t]⟩ := by
      unfold held
      rw [hl]
      simp only
      rw [hf, List.map_append]
      rfl
    rw [hr]
    congr 1
    unfold held
    cases hd : (done.filter (·.id == t.id)).getLast? with
    | none =>
      rw [List.getLast?_eq_none_iff] at hd
      rw [hd]
      rfl
    | some s => rfl
  · rw [if_neg hi]
    have hf : (done ++ [t]).filter (·.id == i) = done.filter (·.id == i) := by
      rw [List.filter_append]
      have : [t].filter (·.id == i) = [] := by
        simp [Ne.symm hi]
      rw [this, List.append_nil]
    unfold held
    rw [hf]

theorem addAll (rd : Txt → β) (sh : α → Txt) : ∀ (ts done : List (Tgt α)),
    (ts.map (tgtJ sh)).foldlM (addT rd) (held rd sh done) = some (held rd sh (done ++ ts)) := by
  intro ts
  induction ts with
  | nil => intro done; simp
  | cons t ts ih =>
    intro done
    rw [List.map_cons, List.foldlM_cons, addT_tgtJ]
    simp only [Option.bind_eq_bind, Option.bind_some]
    rw [ih, List.append_assoc, List.singleton_append]

/-! ## The means -/

variable [AddCommMonoid β] [Mul β]

/-- Row `k` of the mean of the mixture as it is read: the sum of the products of the weights and the
entries of the components' means. -/
def meanRow (rd : Txt → β) (sh : α → Txt) (k : Nat) (c : List (Gauss α)) : β :=
  (c.map fun g => rd (sh g.w) * (((g.x[k]?.bind (·[0]?)).map fun a => rd (sh a)).getD 0)).sum

/-- A mixture of the tracker `SILMB<GM<4>>`: at least one component, means with four rows and one
column. -/
def Four (c : List (Gauss α)) : Prop :=
  c ≠ [] ∧ ∀ g ∈ c, ∃ x0 x1 x2 x3, g.x = [[x0], [x1], [x2], [x3]]

theorem mean_fold (rd : Txt → β) (sh : α → Txt) : ∀ (c : List (Gauss α)),
    (∀ g ∈ c, ∃ x0 x1 x2 x3, g.x = [[x0], [x1], [x2], [x3]]) → ∀ a0 a1 a2 a3 : β,
    (c.map (compOf rd sh)).foldlM (fun a c =>
      match a, c.x with
      | [a0, a1, a2, a3], [[x0], [x1], [x2], [x3]] =>
        some [a0 + c.w * x0, a1 + c.w * x1, a2 + c.w * x2, a3 + c.w * x3]
      | _, _ => none) [a0, a1, a2, a3] =
    some [a0 + meanRow rd sh 0 c, a1 + meanRow rd sh 1 c, a2 + meanRow rd sh 2 c,
      a3 + meanRow rd sh 3 c] := by
  intro c
  induction c with
  | nil =>
    intro _ a0 a1 a2 a3
    simp [meanRow]
  | cons g c ih =>
    intro h a0 a1 a2 a3
    obtain ⟨x0, x1, x2, x3, hx⟩ := h g (by simp)
    rw [List.map_cons, List.foldlM_cons]
    simp only [compOf, hx, List.map_cons, List.map_nil, Option.bind_eq_bind, Option.bind_some]
    have := ih (fun g' hg' => h g' (by simp [hg'])) (a0 + rd (sh g.w) * rd (sh x0))
      (a1 + rd (sh g.w) * rd (sh x1)) (a2 + rd (sh g.w) * rd (sh x2))
      (a3 + rd (sh g.w) * rd (sh x3))
    rw [this]
    simp only [meanRow, List.map_cons, List.sum_cons, hx, add_assoc]
    rfl

theorem mean_four (rd : Txt → β) (sh : α → Txt) {c : List (Gauss α)} (h : Four c) :
    mean (.gm (c.map (compOf rd sh))) = some [meanRow rd sh 0 c, meanRow rd sh 1 c, meanRow rd sh 2 c,
      meanRow rd sh 3 c] := by
  obtain ⟨hne, hx⟩ := h
  have := mean_fold rd sh c hx 0 0 0 0
  simp only [zero_add] at this
  rw [← this]
  cases c with
  | nil => exact absurd rfl hne
  | cons g c => rfl

/-- The point of the figure for a state. -/
def point (rd : Txt → β) (sh : α → Txt) (t : Tgt α) : β × β :=
  (meanRow rd sh 0 t.c, meanRow rd sh 1 t.c)

theorem plotTrace_held (rd : Txt → β) (sh : α → Txt) {done : List (Tgt α)}
    (h4 : ∀ t ∈ done, Four t.c) {t : Tgt α} (ht : t ∈ done) :
    (held rd sh done t.id).bind plotTrace =
      some ⟨t.id, (done.filter (·.id == t.id)).map (point rd sh),
        (done.filter (·.id == t.id)).getLast?.map fun s => rd (sh s.r)⟩ := by
  unfold held
  cases hd : (done.filter (·.id == t.id)).getLast? with
  | none =>
    rw [List.getLast?_eq_none_iff, List.filter_eq_nil_iff] at hd
    exact absurd (beq_self_eq_true t.id) (hd t ht)
  | some s =>
    simp only [Option.bind_some, plotTrace]
    rw [mapM_map (δ := β) _ (entryOf rd sh) (point rd sh)]
    · rfl
    · intro u hu
      have := mean_four rd sh (h4 u (List.mem_filter.1 hu).1)
      simp only [entryOf, this, Option.bind_eq_bind, Option.bind_some]
      rfl

/-! ## The lines -/

/-- A line of a log: the time, the scan and the targets. -/
abbrev Line (α : Type) := α × List (Report α) × List (Tgt α)

/-- The line as text. -/
def Line.txt (sh : α → Txt) (l : Line α) : Txt := logLine sh l.1 l.2.1 l.2.2

/-- The value of a line. -/
def lineJ (sh : α → Txt) (l : Line α) : J :=
  .obj [kv "t" (.num (sh l.1)), kv "scan" (.arr (l.2.1.map (reportJ sh))),
    kv "post" (trackerJ sh l.2.2)]

theorem good_line {sh : α → Txt} (hs : ∀ a, isNum (sh a) = true) (l : Line α) :
    Good (l.txt sh) (lineJ sh l) := by
  have hscan : Good (reportsRepr sh l.2.1) (.arr (l.2.1.map (reportJ sh))) := by
    have := good_list hs (good_report hs) l.2.1
    simpa [reportsRepr, sepLoop_true, lit] using this
  have hpost : Good (trackerRepr sh l.2.2) (trackerJ sh l.2.2) := by
    have := good_obj [("targets".toList, '[' :: (commas (l.2.2.map (Tgt.repr sh)) ++ [']']),
      .arr (l.2.2.map (tgtJ sh)))] (by simp) (by
        simp only [List.mem_cons, List.not_mem_nil, or_false]
        rintro x rfl
        exact ⟨rfl, good_list hs (good_tgt hs) l.2.2⟩)
    simpa [trackerRepr, sepLoop_true, trackerJ, kv, lit, commas, membTxt] using this
  have := good_obj [("t".toList, sh l.1, .num (sh l.1)),
    ("scan".toList, reportsRepr sh l.2.1, .arr (l.2.1.map (reportJ sh))),
    ("post".toList, trackerRepr sh l.2.2, trackerJ sh l.2.2)] (by simp) (by
      simp only [List.mem_cons, List.not_mem_nil, or_false]
      rintro x (rfl | rfl | rfl)
      · exact ⟨rfl, good_num (hs _)⟩
      · exact ⟨rfl, hscan⟩
      · exact ⟨rfl, hpost⟩)
  simpa [Line.txt, logLine, lineJ, kv, lit, commas, membTxt] using this

theorem loads_line {sh : α → Txt} (hs : ∀ a, isNum (sh a) = true) (l : Line α) :
    ∃ F, ∀ n, F ≤ n → loads n (l.txt sh) = some (lineJ sh l) := by
  obtain ⟨F, hF⟩ := (good_line hs l).whole
  refine ⟨F, fun n hn => ?_⟩
  rw [loads, hF n hn]

/-- The states of target `i` in the lines, oldest first. -/
def statesOf (log : List (Line α)) (i : Nat) : List (Tgt α) :=
  log.flatMap fun l => l.2.2.filter (·.id == i)

theorem statesOf_eq (log : List (Line α)) (i : Nat) :
    statesOf log i = (log.flatMap fun l => l.2.2).filter (·.id == i) := by
  rw [List.filter_flatMap]
  rfl

/-- The figure of line `k`: for every target in the line, in order, the line through the points of
its states so far, and the last of its probabilities of existence. -/
def figure (rd : Txt → β) (sh : α → Txt) (log : List (Line α)) (k : Nat) : List (Trace β) :=
  ((log[k]?.map fun l => l.2.2).getD []).map fun t =>
    ⟨t.id, (statesOf (log.take (k + 1)) t.id).map (point rd sh),
      (statesOf (log.take (k + 1)) t.id).getLast?.map fun s => rd (sh s.r)⟩

theorem drawLoop_spec {sh : α → Txt} (hs : ∀ a, isNum (sh a) = true) (rd : Txt → β) :
    ∀ (rest pre : List (Line α)), (∀ l ∈ pre ++ rest, ∀ t ∈ l.2.2, Four t.c) →
      pre.length + rest.length ≤ 12 → ∃ F, ∀ n, F ≤ n →
        drawLoop n rd (rest.map (Line.txt sh)) pre.length
          (held rd sh (pre.flatMap fun l => l.2.2)) =
        some ((List.range rest.length).map fun j => figure rd sh (pre ++ rest) (pre.length + j)) := by
  intro rest
  induction rest with
  | nil => exact fun pre _ _ => ⟨0, fun n _ => by simp [drawLoop]⟩
  | cons l rest ih =>
    intro pre h4 hlen
    rw [List.length_cons] at hlen
    obtain ⟨F, hF⟩ := ih (pre ++ [l]) (by simpa using h4) (by simp; omega)
    obtain ⟨G, hG⟩ := loads_line hs l
    refine ⟨F + G, fun n hn => ?_⟩
    have hF := hF n (by omega)
    have hG := hG n (by omega)
    have k1 : key "post" (lineJ sh l) = some (trackerJ sh l.2.2) := rfl
    have k2 : key "targets" (trackerJ sh l.2.2) = some (.arr (l.2.2.map (tgtJ sh))) := rfl
    have k3 : key "t" (lineJ sh l) = some (.num (sh l.1)) := rfl
    have hd : (pre ++ [l]).flatMap (fun l => l.2.2) = (pre.flatMap fun l => l.2.2) ++ l.2.2 := by
      simp
    have hfig : (l.2.2.map (tgtJ sh)).mapM (fun t =>
        (key "id" t).bind fun j => (asNat j).bind fun i =>
          (held rd sh ((pre.flatMap fun l => l.2.2) ++ l.2.2) i).bind plotTrace) =
        some (figure rd sh (pre ++ l :: rest) pre.length) := by
      have hget : (pre ++ l :: rest)[pre.length]? = some l := by simp
      have htake : (pre ++ l :: rest).take (pre.length + 1) = pre ++ [l] := by
        rw [show pre ++ l :: rest = (pre ++ [l]) ++ rest by simp]
        exact List.take_left' (by simp)
      rw [figure, hget, htake]
      simp only [Option.map_some, Option.getD_some]
      apply mapM_map (δ := β)
      intro t ht
      have k4 : key "id" (tgtJ sh t) = some (natJ t.id) := rfl
      rw [k4, Option.bind_some, asNat_natJ, Option.bind_some, plotTrace_held rd sh ?_ ?_]
      · rw [statesOf_eq, hd]
      · intro u hu
        rcases List.mem_append.1 hu with hu | hu
        · obtain ⟨m, hm, hum⟩ := List.mem_flatMap.1 hu
          exact h4 m (by simp [hm]) u hum
        · exact h4 l (by simp) u hu
      · simp [ht]
    rw [List.map_cons, drawLoop]
    simp only [hG, k1, k2, k3, Option.bind_eq_bind, Option.bind_some, asArr, addAll]
    rw [if_neg (by omega)]
    simp only [hfig, pure, Option.bind_some]
    rw [hd, List.length_append, List.length_singleton] at hF
    rw [hF, Option.bind_some, List.length_cons, List.range_succ_eq_map, List.map_cons, List.map_map]
    congr 2
    apply List.map_congr_left
    intro j _
    simp only [Function.comp_apply]
    rw [List.append_assoc, List.singleton_append]
    congr 1
    omega

/-- C85: a log of at most twelve lines, written by the tracker, is drawn: figure `k` shows for each
target of line `k` the track through all its states up to that line, oldest first, and no states of
other targets, with the numbers as they were read. -/
theorem C85_log {sh : α → Txt} (hs : ∀ a, isNum (sh a) = true) (rd : Txt → β)
    (log : List (Line α)) (h4 : ∀ l ∈ log, ∀ t ∈ l.2.2, Four t.c) (hlen : log.length ≤ 12) :
    ∃ F, ∀ n, F ≤ n → draw n rd (log.map (Line.txt sh)) =
      some ((List.range log.length).map (figure rd sh log)) := by
  obtain ⟨F, hF⟩ := drawLoop_spec hs rd log [] (by simpa using h4) (by simpa using hlen)
  refine ⟨F, fun n hn => ?_⟩
  have := hF n hn
  simp only [List.length_nil, List.nil_append, Nat.zero_add, List.flatMap_nil] at this
  exact this

/-- With different ids in every line, the text at a track is the target's probability of
existence. -/
theorem C85_text (rd : Txt → β) (sh : α → Txt) (log : List (Line α)) (k : Nat) (l : Line α)
    (hl : log[k]? = some l) (hnd : (l.2.2.map (·.id)).Nodup) (j : Nat) (t : Tgt α)
    (ht : l.2.2[j]? = some t) :
    ∃ tr, (figure rd sh log k)[j]? = some tr ∧ tr.c = t.id ∧ tr.text = some (rd (sh t.r)) ∧
      tr.pts.getLast? = some (point rd sh t) ∧
      tr.pts.length = (statesOf (log.take (k + 1)) t.id).length := by
  refine ⟨⟨t.id, (statesOf (log.take (k + 1)) t.id).map (point rd sh),
      (statesOf (log.take (k + 1)) t.id).getLast?.map fun s => rd (sh s.r)⟩, ?_, rfl, ?_⟩
  · rw [figure, hl]
    simp [ht]
  · have hlast : (statesOf (log.take (k + 1)) t.id).getLast? = some t := by
      have hk : k < log.length := (List.getElem?_eq_some_iff.1 hl).1
      have hlk : log[k] = l := (List.getElem?_eq_some_iff.1 hl).2
      rw [List.take_succ_eq_append_getElem hk, hlk]
      have hfil : l.2.2.filter (·.id == t.id) = [t] := by
        have hm : t ∈ l.2.2 := List.mem_of_getElem? ht
        have hn2 : l.2.2.Nodup := List.Nodup.of_map _ hnd
        have hall : ∀ u ∈ l.2.2.filter (·.id == t.id), u = t := by
          intro u hu
          obtain ⟨hu1, hu2⟩ := List.mem_filter.1 hu
          exact List.inj_on_of_nodup_map hnd hu1 hm (by simpa using hu2)
        have hmem : t ∈ l.2.2.filter (·.id == t.id) := List.mem_filter.2 ⟨hm, by simp⟩
        have hnf : (l.2.2.filter (·.id == t.id)).Nodup := hn2.filter _
        revert hall hmem hnf
        generalize l.2.2.filter (·.id == t.id) = L
        intro hall hmem hnf
        match L with
        | [] => cases hmem
        | [a] => rw [hall a (by simp)]
        | a :: b :: L =>
          exfalso
          rw [hall a (by simp), hall b (by simp)] at hnf
          simp at hnf
      unfold statesOf
      rw [List.flatMap_append, List.getLast?_append]
      simp [hfil]
    simp only [List.getLast?_map, hlast, Option.map_some, List.length_map, and_self]

omit [AddCommMonoid β] in
theorem drawLoop_bad [AddCommMonoid β] [Mul β] (n : Nat) (rd : Txt → β) {bad : Txt}
    (h : loads n bad = none) : ∀ (pre post : List Txt) (i : Nat) (d : Dict β),
    drawLoop n rd (pre ++ bad :: post) i d = none := by
  intro pre
  induction pre with
  | nil => intro post i d; simp [drawLoop, h]
  | cons x l ih =>
    intro post i d
    rw [List.cons_append, drawLoop]
    cases h1 : loads n x with
    | none => rfl
    | some v =>
      simp only [ih, Option.bind_eq_bind, Option.bind_some]
      cases key "post" v with
      | none => rfl
      | some p =>
        simp only [Option.bind_some]
        cases key "targets" p with
        | none => rfl
        | some q =>
          simp only [Option.bind_some]
          cases asArr q with
          | none => rfl
          | some ts =>
            simp only [Option.bind_some]
            cases ts.foldlM (addT rd) d with
            | none => rfl
            | some d' =>
              simp only [Option.bind_some]
              split
              · rfl
              · simp only [Option.bind_none, Option.bind_fun_none]

/-- C85: two lines that have run together, or a line with anything else after its last bracket (the
rest must not begin like a number), stop the reader: there is no figure, not even of the lines before. -/
theorem C85_joined [AddCommMonoid β] [Mul β] {sh : α → Txt} (hs : ∀ a, isNum (sh a) = true) (rd : Txt → β)
    (pre post : List Txt) (l : Line α) (rest : Txt) (hne : rest ≠ [])
    (hr : ∀ c ∈ rest.head?, numChar c = false) :
    ∃ F, ∀ n, F ≤ n → draw n rd (pre ++ (l.txt sh ++ rest) :: post) = none := by
  obtain ⟨F, hF⟩ := (good_line hs l).2 rest hr
  refine ⟨F, fun n hn => ?_⟩
  refine drawLoop_bad n rd ?_ pre post 0 _
  rw [loads, hF n hn]
  cases rest with
  | nil => exact absurd rfl hne
  | cons c t => rfl

theorem drawLoop_long [AddCommMonoid β] (n : Nat) (rd : Txt → β) : ∀ (lines : List Txt) (i : Nat)
    (d : Dict β), 12 < i + lines.length → i ≤ 12 → drawLoop n rd lines i d = none := by
  intro lines
  induction lines with
  | nil => intro i d h h2; simp at h; omega
  | cons l ls ih =>
    intro i d h h2
    rw [List.length_cons] at h
    rw [drawLoop]
    cases hl : loads n l with
    | none => rfl
    | some v =>
      simp only [Option.bind_eq_bind, Option.bind_some]
      cases hp : key "post" v with
      | none => rfl
      | some p =>
        simp only [Option.bind_some]
        cases hq : key "targets" p with
        | none => rfl
        | some q =>
          simp only [Option.bind_some]
          cases hts : asArr q with
          | none => rfl
          | some ts =>
            simp only [Option.bind_some]
            cases hd : ts.foldlM (addT rd) d with
            | none => rfl
            | some d' =>
              simp only [Option.bind_some]
              by_cases hi : 12 < i + 1
              · rw [if_pos hi]
                rfl
              · rw [if_neg hi]
                simp only [pure, Option.bind_some]
                cases key "t" v with
                | none => rfl
                | some tt =>
                  simp only [Option.bind_some]
                  rw [ih (i + 1) d' (by omega) (by omega)]
                  simp

/-- C85, refuted for longer logs: any log of more than twelve lines ends in an exception, and
nothing is saved. -/
theorem C85_long_refuted (n : Nat) (rd : Txt → β) (lines : List Txt) (h : 12 < lines.length) :
    draw n rd lines = none :=
  drawLoop_long n rd lines 0 _ (by omega) (by omega)

/-! ## The weights in the log

`os << w` at `gaussian.hpp:152` and `os << r` at `target.hpp:204` use the default precision of six
significant digits, the matrices use full precision (`constants.hpp:6`). -/

/-- The point drawn for a mixture whose components share their position is that position times the
sum of the weights as they were printed. -/
theorem C85_point (rd : Txt → ℝ) (sh : α → Txt) (t : Tgt α) (a b : α)
    (hx : ∀ g ∈ t.c, ∃ v w, g.x = [[a], [b], [v], [w]]) :
    point rd sh t = ((t.c.map fun g => rd (sh g.w)).sum * rd (sh a),
      (t.c.map fun g => rd (sh g.w)).sum * rd (sh b)) := by
  obtain ⟨id, cid, la, r, c⟩ := t
  simp only [point, meanRow, Prod.mk.injEq] at hx ⊢
  induction c with
  | nil => simp
  | cons g c ih =>
    obtain ⟨i1, i2⟩ := ih fun g' hg' => hx g' (by simp [hg'])
    obtain ⟨v, w, hg⟩ := hx g (by simp)
    simp only [List.map_cons, List.sum_cons, i1, i2, hg, add_mul]
    exact ⟨rfl, rfl⟩

/-- C85, refuted for the position: three components of weight one third at the same place, printed as
`0.333333`, are drawn at `0.999999` times their place. -/
theorem C85_mean_refuted (rd : Txt → ℝ) (sh : α → Txt) (third : α) (h3 : sh third = lit "0.333333")
    (hrd : rd (lit "0.333333") = 333333 / 10 ^ 6) (t : Tgt α) (a b v w : α) (P1 P2 P3 : List (List α))
    (hc : t.c = [⟨third, [[a], [b], [v], [w]], P1⟩, ⟨third, [[a], [b], [v], [w]], P2⟩,
      ⟨third, [[a], [b], [v], [w]], P3⟩]) (ha : rd (sh a) ≠ 0) :
    (point rd sh t).1 = 999999 / 10 ^ 6 * rd (sh a) ∧ (point rd sh t).1 ≠ rd (sh a) := by
  have h := C85_point rd sh t a b (by
    rw [hc]
    simp)
  have h1 : (point rd sh t).1 = 999999 / 10 ^ 6 * rd (sh a) := by
    rw [h, hc]
    simp only [List.map_cons, List.map_nil, List.sum_cons, List.sum_nil, h3, hrd]
    norm_num
  refine ⟨h1, ?_⟩
  rw [h1]
  intro hh
  apply ha
  linarith

/-! ## Examples -/

/-- Two lines: target 1 alone, then target 2 before target 1. -/
def exLog : List (Line Nat) :=
  [(0, [⟨[[3], [4]], [[1, 0], [0, 1]]⟩],
    [⟨1, 7, .init, 1, [⟨1, [[3], [4], [0], [0]], [[1]]⟩]⟩]),
   (1, [], [⟨2, 7, .init, 0, [⟨1, [[9], [9], [0], [0]], [[1]]⟩]⟩,
    ⟨1, 7, .correct, 1, [⟨1, [[5], [6], [0], [0]], [[1]]⟩]⟩])]

theorem exLog_four : ∀ l ∈ exLog, ∀ t ∈ l.2.2, Four t.c := by
  intro l hl t ht
  simp only [exLog, List.mem_cons, List.not_mem_nil, or_false] at hl
  rcases hl with rfl | rfl
  · simp only [List.mem_cons, List.not_mem_nil, or_false] at ht
    subst ht
    exact ⟨by simp, by simp⟩
  · simp only [List.mem_cons, List.not_mem_nil, or_false] at ht
    rcases ht with rfl | rfl
    · exact ⟨by simp, by simp⟩
    · exact ⟨by simp, by simp⟩

/-- Reading the digits of a number. -/
def rdNat (t : Txt) : Nat := ((String.ofList t).toNat?).getD 0

example : ∃ F, ∀ n, F ≤ n → draw n rdNat (exLog.map (Line.txt shNat)) =
    some ((List.range 2).map (figure rdNat shNat exLog)) :=
  C85_log shNat_num rdNat exLog exLog_four (by decide)

/-- In the second figure target 1 has the two points of its two states. -/
example : (figure rdNat shNat exLog 1).map (fun t => (t.c, t.pts.length)) =
    [(2, 1), (1, 2)] := by
  simp [figure, exLog, statesOf]

example : ∃ tr, (figure rdNat shNat exLog 1)[1]? = some tr ∧ tr.c = 1 ∧
    tr.text = some (rdNat (shNat 1)) ∧ tr.pts.getLast? = some (point rdNat shNat
      ⟨1, 7, .correct, 1, [⟨1, [[5], [6], [0], [0]], [[1]]⟩]⟩) ∧
    tr.pts.length = (statesOf (exLog.take 2) 1).length :=
  C85_text rdNat shNat exLog 1 _ rfl (by simp) 1 _ rfl

/-- A target at latitude 58 is drawn about six metres (`58 · 10⁻⁶` degrees) too far south. -/
example : (point (fun t : Txt => if t = lit "0.333333" then (333333 / 10 ^ 6 : ℝ) else 58) id
    ⟨1, 7, .correct, lit "1",
      [⟨lit "0.333333", [[lit "58"], [lit "15"], [lit "0"], [lit "0"]], []⟩,
       ⟨lit "0.333333", [[lit "58"], [lit "15"], [lit "0"], [lit "0"]], []⟩,
       ⟨lit "0.333333", [[lit "58"], [lit "15"], [lit "0"], [lit "0"]], []⟩]⟩).1 =
    999999 / 10 ^ 6 * 58 := by
  have h := (C85_mean_refuted
    (fun t : Txt => if t = lit "0.333333" then (333333 / 10 ^ 6 : ℝ) else 58) id
    (lit "0.333333") rfl (if_pos rfl) ⟨1, 7, .correct, lit "1",
      [⟨lit "0.333333", [[lit "58"], [lit "15"], [lit "0"], [lit "0"]], []⟩,
       ⟨lit "0.333333", [[lit "58"], [lit "15"], [lit "0"], [lit "0"]], []⟩,
       ⟨lit "0.333333", [[lit "58"], [lit "15"], [lit "0"], [lit "0"]], []⟩]⟩
    (lit "58") (lit "15") (lit "0") (lit "0") [] [] [] rfl (by
      rw [if_neg (by decide)]
      norm_num)).1
  rw [h]
  congr 1

/-- The two lines without a line break between them, after a good line. -/
example (l : Line Nat) : ∃ F, ∀ n, F ≤ n → draw n rdNat
    ([l.txt shNat] ++ (Line.txt shNat (0, [], []) ++ l.txt shNat) :: []) = none :=
  C85_joined shNat_num rdNat [l.txt shNat] [] (0, [], []) (l.txt shNat) (by simp [Line.txt, logLine, lit])
    (by intro c hc; simp [Line.txt, logLine, lit] at hc; subst hc; decide)

example : draw 100 rdNat (List.replicate 13 (Line.txt shNat (0, [], []))) = none :=
  C85_long_refuted _ _ _ (by decide)

end Verif.Plot
