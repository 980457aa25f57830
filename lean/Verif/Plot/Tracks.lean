import Mathlib.Data.List.Nodup
import Mathlib.Data.List.Dedup
import Mathlib.Order.Defs.LinearOrder

/-!
# C86: the tracks drawn by `lmb/plot.py`

`tracks` as a function from the history to the lines it draws.  Positions are converted by an
arbitrary function `ne` (`cf.ll2ne`).  Ellipses are in `Verif/Plot/Ellipse.lean`; texts, boxes and
the field of view are left out.
-/

namespace Verif.Plot

variable {ρ X Y : Type}

/-- What `tracks` uses of a target summary, `lmb/plot.py:50-61`. -/
structure Tgt (ρ X : Type) where
  id : Nat
  cid : Nat
  r : ρ
  x : X

/-- The dictionary `lines`, `lmb/plot.py:53`, in the order of its keys. -/
abbrev Lines (ρ X Y : Type) := List (Nat × List (Tgt ρ X × Y))

/-- `lines = {i: [] for i in ids}`, `lmb/plot.py:53`: a repeated key stays where it was. -/
def initLines (ids : List Nat) : Lines ρ X Y :=
  ids.foldl (fun d i => if d.any (·.1 == i) then d else d ++ [(i, [])]) []

/-- `lines[t.id].append((t, nex))`, `lmb/plot.py:59`. -/
def append (d : Lines ρ X Y) (t : Tgt ρ X) (y : Y) : Lines ρ X Y :=
  d.map fun l => if l.1 = t.id then (l.1, l.2 ++ [(t, y)]) else l

/-- `CMAP(i)`, `lmb/plot.py:24`: `ListedColormap` of `256*256` colours; an integer is the number of
the colour, integers beyond the end take the last (matplotlib's default for "over"). -/
def colour (i : Nat) : Nat := if 256 * 256 - 1 < i then 256 * 256 - 1 else i

/-- A line of the figure: its colour, the points it joins (north, east of each), and the target at
its end, where the marker is, `lmb/plot.py:60-65`. -/
structure Drawn (ρ X Y : Type) where
  colour : Nat
  pts : List Y
  last : Tgt ρ X
  mark : Y

/-- `tracks(history, origin, c, clustercolor=..., min_r=...)`, `lmb/plot.py:43-65`.  `track[-1]` of
an empty list would be an exception (`none`). -/
def tracks [LE ρ] [DecidableLE ρ] (ne : X → Y) (c : Nat) (clustercolor : Bool) (minR : ρ)
    (history : List (List (Tgt ρ X))) : Option (List (Drawn ρ X Y)) :=
  match history.getLast? with
  | none => some []
  | some now =>
    let ids := (now.filter fun t => decide (minR ≤ t.r)).map (·.id)
    if ids.isEmpty then some []
    else
      let lines : Lines ρ X Y := history.foldl (fun d recall =>
        recall.foldl (fun d t => if ids.contains t.id then append d t (ne t.x) else d) d)
        (initLines ids)
      lines.mapM fun l => do
        let (t, y) ← l.2.getLast?
        return ⟨colour (c + if clustercolor then t.cid else t.id), l.2.map (·.2), t, y⟩

/-! ## The property -/

theorem initLines_nodup : ∀ (ids done : List Nat), (done ++ ids).Nodup →
    ids.foldl (fun d i => if d.any (·.1 == i) then d else d ++ [(i, [])])
      (done.map fun i => (i, ([] : List (Tgt ρ X × Y)))) =
    (done ++ ids).map fun i => (i, []) := by
  intro ids
  induction ids with
  | nil => intro done _; simp
  | cons i ids ih =>
    intro done h
    rw [List.foldl_cons]
    have hn : i ∉ done := fun hi => by
      have := List.nodup_append.1 h
      exact this.2.2 i hi i (by simp) rfl
    have hany : (done.map fun i => (i, ([] : List (Tgt ρ X × Y)))).any (·.1 == i) = false := by
      rw [List.any_eq_false]
      intro l hl
      obtain ⟨j, hj, rfl⟩ := List.mem_map.1 hl
      simp only [beq_iff_eq]
      rintro rfl
      exact hn hj
    rw [hany]
    have := ih (done ++ [i]) (by simpa using h)
    simp only [List.map_append, List.map_cons, List.map_nil, List.append_assoc,
      List.singleton_append] at this
    simpa using this

theorem append_spec (ne : X → Y) (ids : List Nat) (done : List (Tgt ρ X)) (t : Tgt ρ X) :
    append (ids.map fun i => (i, (done.filter (·.id == i)).map fun t => (t, ne t.x))) t (ne t.x) =
      ids.map fun i => (i, ((done ++ [t]).filter (·.id == i)).map fun t => (t, ne t.x)) := by
  rw [append, List.map_map]
  apply List.map_congr_left
  intro i _
  simp only [Function.comp_apply]
  by_cases hi : i = t.id
  · rw [if_pos hi, List.filter_append, List.map_append]
    simp [hi]
  · rw [if_neg hi, List.filter_append, List.map_append]
    simp [Ne.symm hi]

theorem fold_spec (ne : X → Y) (ids : List Nat) : ∀ (ts done : List (Tgt ρ X)),
    ts.foldl (fun d t => if ids.contains t.id then append d t (ne t.x) else d)
      (ids.map fun i => (i, (done.filter (·.id == i)).map fun t => (t, ne t.x))) =
    ids.map fun i => (i, ((done ++ ts).filter (·.id == i)).map fun t => (t, ne t.x)) := by
  intro ts
  induction ts with
  | nil => intro done; simp
  | cons t ts ih =>
    intro done
    rw [List.foldl_cons]
    by_cases hc : ids.contains t.id = true
    · rw [if_pos hc, append_spec, ih, List.append_assoc, List.singleton_append]
    · rw [if_neg hc, ih]
      apply List.map_congr_left
      intro i hi
      have hne : (t.id == i) = false := by
        rw [beq_eq_false_iff_ne]
        rintro rfl
        exact hc (List.contains_iff_mem.2 hi)
      rw [List.filter_append, List.filter_append, List.filter_cons, hne]
      rfl

/-- The states of target `i` in the whole history, oldest first. -/
def pastOf (history : List (List (Tgt ρ X))) (i : Nat) : List (Tgt ρ X) :=
  history.flatMap fun recall => recall.filter (·.id == i)

/-- C86: if the ids of the last recall are all different, the figure has one line for each target of
the last recall whose probability of existence is at least `min_r`, in the order of the recall and no
other; it joins all the positions the target had in the history, oldest first, and ends with the
marker at its present position; its colour is that of its id or its cluster. -/
theorem C86_tracks [LE ρ] [DecidableLE ρ] (ne : X → Y) (c : Nat) (cc : Bool) (minR : ρ)
    (past : List (List (Tgt ρ X))) (now : List (Tgt ρ X)) (hnd : (now.map (·.id)).Nodup) :
    tracks ne c cc minR (past ++ [now]) =
      some ((now.filter fun t => decide (minR ≤ t.r)).map fun t =>
        ⟨colour (c + if cc then t.cid else t.id),
          (pastOf past t.id).map (fun s => ne s.x) ++ [ne t.x], t, ne t.x⟩) := by
  have hlast : (past ++ [now]).getLast? = some now := by simp
  rw [tracks, hlast]
  simp only
  set sel := now.filter fun t => decide (minR ≤ t.r) with hsel
  by_cases he : (sel.map (·.id)).isEmpty = true
  · rw [if_pos he]
    rw [List.isEmpty_iff, List.map_eq_nil_iff] at he
    rw [he]
    rfl
  rw [if_neg he]
  have hids : (sel.map (·.id)).Nodup := hnd.sublist (List.filter_sublist.map _)
  have h0 : (initLines (sel.map (·.id)) : Lines ρ X Y) =
      (sel.map (·.id)).map fun i =>
        (i, (([] : List (Tgt ρ X)).filter (·.id == i)).map fun t => (t, ne t.x)) := by
    have := initLines_nodup (ρ := ρ) (X := X) (Y := Y) (sel.map (·.id)) [] (by simpa using hids)
    simpa [initLines] using this
  rw [← List.foldl_flatten, h0, fold_spec, List.nil_append, List.mapM_map, List.mapM_map]
  have hmap : ∀ (l : List (Tgt ρ X)) (f : Tgt ρ X → Option (Drawn ρ X Y))
      (g : Tgt ρ X → Drawn ρ X Y), (∀ t ∈ l, f t = some (g t)) → l.mapM f = some (l.map g) := by
    intro l f g
    induction l with
    | nil => intro _; rfl
    | cons t l ih =>
      intro h
      rw [List.mapM_cons, h t (by simp), ih fun u hu => h u (by simp [hu])]
      rfl
  apply hmap
  intro t ht
  have htn : t ∈ now := (List.mem_filter.1 ht).1
  have hnow : now.filter (·.id == t.id) = [t] := by
    have hall : ∀ u ∈ now.filter (·.id == t.id), u = t := by
      intro u hu
      obtain ⟨hu1, hu2⟩ := List.mem_filter.1 hu
      exact List.inj_on_of_nodup_map hnd hu1 htn (by simpa using hu2)
    have hmem : t ∈ now.filter (·.id == t.id) := List.mem_filter.2 ⟨htn, by simp⟩
    have hnf : (now.filter (·.id == t.id)).Nodup := (List.Nodup.of_map _ hnd).filter _
    revert hall hmem hnf
    generalize now.filter (·.id == t.id) = L
    intro hall hmem hnf
    match L with
    | [] => cases hmem
    | [a] => rw [hall a (by simp)]
    | a :: b :: L =>
      exfalso
      rw [hall a (by simp), hall b (by simp)] at hnf
      simp at hnf
  have hall : (past ++ [now]).flatten.filter (·.id == t.id) = pastOf past t.id ++ [t] := by
    rw [List.flatten_append, List.filter_append, List.flatten_cons, List.flatten_nil,
      List.append_nil, hnow, pastOf, List.filter_flatten, List.flatMap]
  simp only [Function.comp_apply, hall]
  simp

/-- C86, the colours: tracks with different ids have colours with different numbers as long as the ids
are small, but from `65535` on all have the same. -/
theorem C86_colours (c i j : Nat) (hne : i ≠ j) (hi : c + i < 65536) (hj : c + j < 65536) :
    colour (c + i) ≠ colour (c + j) := by
  unfold colour
  rw [if_neg (by omega), if_neg (by omega)]
  omega

/-- C86, refuted: ids are never reused and grow without bound; from `65535` on all tracks are drawn in
the same colour. -/
theorem C86_colours_refuted (c i j : Nat) (hi : 65535 ≤ c + i) (hj : 65535 ≤ c + j) :
    colour (c + i) = colour (c + j) := by
  unfold colour
  split <;> split <;> omega

/-- C86, repeated ids: without different ids the line of one target goes through the other. -/
theorem C86_repeated_refuted :
    tracks (ρ := Nat) (X := Nat) id 0 false 0 [[⟨1, 0, 1, 10⟩, ⟨1, 0, 1, 20⟩]] =
      some [⟨1, [10, 20], ⟨1, 0, 1, 20⟩, 20⟩] := by
  rfl

/-- Target 1 twice, target 2 once, target 3 has gone, target 4 is too improbable. -/
example : tracks (ρ := Nat) (X := Nat) id 0 false 5
    ([[⟨1, 0, 1, 10⟩, ⟨3, 0, 9, 30⟩]] ++ [[⟨2, 0, 9, 21⟩, ⟨1, 0, 9, 11⟩, ⟨4, 0, 1, 41⟩]]) =
    some [⟨2, [21], ⟨2, 0, 9, 21⟩, 21⟩, ⟨1, [10, 11], ⟨1, 0, 9, 11⟩, 11⟩] :=
  C86_tracks id 0 false 5 _ _ (by decide)

example : colour (0 + 70000) = colour (0 + 80000) :=
  C86_colours_refuted 0 70000 80000 (by decide) (by decide)

example : colour (3 + 70) ≠ colour (3 + 80) := C86_colours 3 70 80 (by decide) (by decide) (by decide)

end Verif.Plot
