import Mathlib.Tactic.Common
import Mathlib.Data.List.TakeWhile
import Verif.Json.Model
import Verif.Json.Parser

/-! # Property C55: the text output is JSON -/

namespace Verif.Json

variable {α β : Type}

/-! ## Texts that parse to a value wherever they stand -/

/-- The text does not begin with a character that continues a number. -/
def Stop (s : Txt) : Prop := ∀ c ∈ s.head?, numChar c = false

/-- The text parses to the value, whatever follows. -/
def Good (s : Txt) (v : J) : Prop :=
  (∃ c l, s = c :: l ∧ c ≠ ']' ∧ c ≠ '}') ∧
  ∀ rest, Stop rest → ∃ F, ∀ n, F ≤ n → parse n (s ++ rest) = some (v, rest)

theorem digit_numChar {c : Char} (h : c.isDigit = true) : numChar c = true := by
  simp [numChar, h]

theorem isExp_numChar : ∀ l : Txt, isExp l = true → ∀ c ∈ l, numChar c = true := by
  intro l h c hc
  cases l with
  | nil => cases hc
  | cons d l =>
    simp only [isExp] at h
    split at h
    · rename_i hd
      have hd' : numChar d = true := by
        simp only [Bool.or_eq_true, beq_iff_eq] at hd
        rcases hd with rfl | rfl <;> decide
      rcases List.mem_cons.1 hc with rfl | hc
      · exact hd'
      · cases l with
        | nil => cases hc
        | cons e l =>
          simp only at h
          split at h
          · rename_i he
            have he' : numChar e = true := by
              simp only [Bool.or_eq_true, beq_iff_eq] at he
              rcases he with rfl | rfl <;> decide
            rcases List.mem_cons.1 hc with rfl | hc
            · exact he'
            · rw [Bool.and_eq_true, List.all_eq_true] at h
              exact digit_numChar (h.2 c hc)
          · rw [List.all_eq_true] at h
            exact digit_numChar (h c hc)
    · cases h

theorem isFrac_numChar : ∀ l : Txt, isFrac l = true → ∀ c ∈ l, numChar c = true := by
  intro l h c hc
  cases l with
  | nil => cases hc
  | cons d l =>
    simp only [isFrac] at h
    split at h
    · rename_i hd
      rw [beq_iff_eq] at hd
      subst hd
      rcases List.mem_cons.1 hc with rfl | hc
      · decide
      · rw [Bool.and_eq_true] at h
        rw [← List.takeWhile_append_dropWhile (p := Char.isDigit) (l := l), List.mem_append] at hc
        rcases hc with hc | hc
        · exact digit_numChar (List.mem_takeWhile_imp hc)
        · exact isExp_numChar _ h.2 c hc
    · exact isExp_numChar _ h c hc

theorem isUnsigned_numChar (l : Txt) (h : isUnsigned l = true) : ∀ c ∈ l, numChar c = true := by
  intro c hc
  unfold isUnsigned at h
  rw [← List.takeWhile_append_dropWhile (p := Char.isDigit) (l := l), List.mem_append] at hc
  rcases hc with hc | hc
  · exact digit_numChar (List.mem_takeWhile_imp hc)
  · split at h
    · cases h
    · rw [Bool.and_eq_true] at h
      exact isFrac_numChar _ h.2 c hc

theorem isNum_numChar (l : Txt) (h : isNum l = true) : ∀ c ∈ l, numChar c = true := by
  unfold isNum at h
  split at h
  · intro c hc
    rcases List.mem_cons.1 hc with rfl | hc
    · decide
    · exact isUnsigned_numChar _ h c hc
  · exact isUnsigned_numChar _ h

theorem good_num {t : Txt} (h : isNum t = true) : Good t (.num t) := by
  have hall := isNum_numChar t h
  have hne : t ≠ [] := by
    rintro rfl
    revert h
    decide
  obtain ⟨c, l, rfl⟩ := List.exists_cons_of_ne_nil hne
  have hc := hall c (by simp)
  have nots : c ≠ '[' ∧ c ≠ '{' ∧ c ≠ '"' ∧ c ≠ ']' ∧ c ≠ '}' := by
    refine ⟨?_, ?_, ?_, ?_, ?_⟩ <;> (rintro rfl; revert hc; decide)
  refine ⟨⟨c, l, rfl, nots.2.2.2.1, nots.2.2.2.2⟩, fun rest hr => ⟨1, fun n hn => ?_⟩⟩
  obtain ⟨m, rfl⟩ : ∃ m, n = m + 1 := ⟨n - 1, by omega⟩
  have htw : (c :: l ++ rest).takeWhile numChar = c :: l := by
    rw [List.takeWhile_append_of_pos hall]
    cases rest with
    | nil => simp
    | cons d r =>
      have := hr d (by simp)
      simp [List.takeWhile_cons, this]
  have hdw : (c :: l ++ rest).dropWhile numChar = rest := by
    rw [List.dropWhile_append_of_pos hall]
    cases rest with
    | nil => simp
    | cons d r =>
      have := hr d (by simp)
      simp [List.dropWhile_cons, this]
  rw [parse]
  · rw [htw, hdw, if_pos h]
  · exact fun r e => nots.1 (List.cons.inj e).1
  · exact fun r e => nots.1 (List.cons.inj e).1
  · exact fun r e => nots.2.1 (List.cons.inj e).1
  · exact fun r e => nots.2.1 (List.cons.inj e).1
  · exact fun r e => nots.2.2.1 (List.cons.inj e).1

theorem parseStr_plain (t rest : Txt) (h : t.all plain = true) :
    parseStr (t ++ '"' :: rest) = some (t, rest) := by
  induction t with
  | nil => simp [parseStr]
  | cons c l ih =>
    rw [List.all_cons, Bool.and_eq_true] at h
    have hq : (c == '"') = false := by
      rw [beq_eq_false_iff_ne]
      rintro rfl
      exact absurd h.1 (by decide)
    simp only [List.cons_append, parseStr, hq, h.1, ih h.2, Bool.false_eq_true, if_false, if_true,
      Option.map_some]

theorem good_str {t : Txt} (h : t.all plain = true) : Good ('"' :: (t ++ ['"'])) (.str t) := by
  refine ⟨⟨_, _, rfl, by decide, by decide⟩, fun rest _ => ⟨1, fun n hn => ?_⟩⟩
  obtain ⟨m, rfl⟩ : ∃ m, n = m + 1 := ⟨n - 1, by omega⟩
  have : '"' :: (t ++ ['"']) ++ rest = '"' :: (t ++ '"' :: rest) := by simp
  rw [this, parse]
  simp only [parseStr_plain t rest h, Option.map_some]

/-- Texts with commas between them. -/
def commas : List Txt → Txt
  | [] => []
  | [s] => s
  | s :: l => s ++ ',' :: commas l

theorem commas_cons (s s' : Txt) (l : List Txt) :
    commas (s :: s' :: l) = s ++ ',' :: commas (s' :: l) := rfl

theorem stop_cons {c : Char} (h : numChar c = false) (l : Txt) : Stop (c :: l) := by
  intro d hd
  simp only [List.head?_cons, Option.mem_def, Option.some.injEq] at hd
  subst hd
  exact h

theorem parseElems_good : ∀ (l : List (Txt × J)), l ≠ [] → (∀ x ∈ l, Good x.1 x.2) → ∀ rest,
    ∃ F, ∀ n, F ≤ n →
      parseElems n (commas (l.map Prod.fst) ++ ']' :: rest) = some (l.map Prod.snd, rest) := by
  intro l
  induction l with
  | nil => exact fun h => absurd rfl h
  | cons x l ih =>
    intro _ hl rest
    have hx := (hl x (by simp)).2
    cases l with
    | nil =>
      obtain ⟨F, hF⟩ := hx (']' :: rest) (stop_cons (by decide) _)
      refine ⟨F + 1, fun n hn => ?_⟩
      obtain ⟨m, rfl⟩ : ∃ m, n = m + 1 := ⟨n - 1, by omega⟩
      simp only [List.map_cons, List.map_nil, commas, parseElems, hF m (by omega)]
    | cons y l =>
      obtain ⟨F, hF⟩ := hx (',' :: (commas ((y :: l).map Prod.fst) ++ ']' :: rest))
        (stop_cons (by decide) _)
      obtain ⟨G, hG⟩ := ih (by simp) (fun z hz => hl z (by simp [hz])) rest
      refine ⟨F + G + 1, fun n hn => ?_⟩
      obtain ⟨m, rfl⟩ : ∃ m, n = m + 1 := ⟨n - 1, by omega⟩
      have e : commas ((x :: y :: l).map Prod.fst) ++ ']' :: rest =
          x.1 ++ ',' :: (commas ((y :: l).map Prod.fst) ++ ']' :: rest) := by
        rw [List.map_cons, List.map_cons, commas_cons]
        simp
      rw [e, parseElems]
      have hG' := hG m (by omega)
      rw [hF m (by omega)]
      simp only [hG', Option.map_some]
      simp only [List.map_cons]

theorem good_arr (l : List (Txt × J)) (h : ∀ x ∈ l, Good x.1 x.2) :
    Good ('[' :: (commas (l.map Prod.fst) ++ [']'])) (.arr (l.map Prod.snd)) := by
  refine ⟨⟨_, _, rfl, by decide, by decide⟩, fun rest _ => ?_⟩
  cases hl : l with
  | nil =>
    refine ⟨1, fun n hn => ?_⟩
    obtain ⟨m, rfl⟩ : ∃ m, n = m + 1 := ⟨n - 1, by omega⟩
    simp [commas, parse]
  | cons x l' =>
    obtain ⟨F, hF⟩ := parseElems_good l (by simp [hl]) h rest
    refine ⟨F + 1, fun n hn => ?_⟩
    obtain ⟨m, rfl⟩ : ∃ m, n = m + 1 := ⟨n - 1, by omega⟩
    rw [← hl]
    have e : '[' :: (commas (l.map Prod.fst) ++ [']']) ++ rest =
        '[' :: (commas (l.map Prod.fst) ++ ']' :: rest) := by simp
    obtain ⟨c, t, ht, hc, -⟩ := (h x (by simp [hl])).1
    have e2 : ∃ t', commas (l.map Prod.fst) ++ ']' :: rest = c :: t' := by
      rw [hl, List.map_cons, ht]
      cases l' with
      | nil => exact ⟨_, rfl⟩
      | cons y l'' => exact ⟨_, rfl⟩
    obtain ⟨t', ht'⟩ := e2
    rw [e, parse]
    have hF' := hF m (by omega)
    · rw [hF']
      rfl
    · intro r heq
      rw [ht'] at heq
      exact hc (List.cons.inj heq).1

/-- A member of an object: its key, the text of its value and the value. -/
def membTxt (x : Txt × Txt × J) : Txt := '"' :: (x.1 ++ '"' :: ':' :: x.2.1)

theorem parseMembs_good : ∀ (l : List (Txt × Txt × J)), l ≠ [] →
    (∀ x ∈ l, x.1.all plain = true ∧ Good x.2.1 x.2.2) → ∀ rest, ∃ F, ∀ n, F ≤ n →
      parseMembs n (commas (l.map membTxt) ++ '}' :: rest) =
        some (l.map fun x => (x.1, x.2.2), rest) := by
  intro l
  induction l with
  | nil => exact fun h => absurd rfl h
  | cons x l ih =>
    intro _ hl rest
    obtain ⟨hk, hx⟩ := hl x (by simp)
    have hx := hx.2
    cases l with
    | nil =>
      obtain ⟨F, hF⟩ := hx ('}' :: rest) (stop_cons (by decide) _)
      refine ⟨F + 1, fun n hn => ?_⟩
      obtain ⟨m, rfl⟩ : ∃ m, n = m + 1 := ⟨n - 1, by omega⟩
      have e : commas ([x].map membTxt) ++ '}' :: rest =
          '"' :: (x.1 ++ '"' :: ':' :: (x.2.1 ++ '}' :: rest)) := by
        simp [commas, membTxt]
      rw [e, parseMembs]
      simp only [parseStr_plain _ _ hk, hF m (by omega), List.map_cons, List.map_nil]
    | cons y l =>
      obtain ⟨F, hF⟩ := hx (',' :: (commas ((y :: l).map membTxt) ++ '}' :: rest))
        (stop_cons (by decide) _)
      obtain ⟨G, hG⟩ := ih (by simp) (fun z hz => hl z (by simp [hz])) rest
      refine ⟨F + G + 1, fun n hn => ?_⟩
      obtain ⟨m, rfl⟩ : ∃ m, n = m + 1 := ⟨n - 1, by omega⟩
      have e : commas ((x :: y :: l).map membTxt) ++ '}' :: rest =
          '"' :: (x.1 ++ '"' :: ':' :: (x.2.1 ++
            ',' :: (commas ((y :: l).map membTxt) ++ '}' :: rest))) := by
        rw [List.map_cons, List.map_cons, commas_cons]
        simp [membTxt]
      rw [e, parseMembs]
      have hG' := hG m (by omega)
      rw [parseStr_plain _ _ hk]
      simp only
      rw [hF m (by omega)]
      simp only [hG', Option.map_some]
      simp only [List.map_cons]

theorem good_obj (l : List (Txt × Txt × J)) (hne : l ≠ [])
    (h : ∀ x ∈ l, x.1.all plain = true ∧ Good x.2.1 x.2.2) :
    Good ('{' :: (commas (l.map membTxt) ++ ['}'])) (.obj (l.map fun x => (x.1, x.2.2))) := by
  refine ⟨⟨_, _, rfl, by decide, by decide⟩, fun rest _ => ?_⟩
  obtain ⟨F, hF⟩ := parseMembs_good l hne h rest
  refine ⟨F + 1, fun n hn => ?_⟩
  obtain ⟨m, rfl⟩ : ∃ m, n = m + 1 := ⟨n - 1, by omega⟩
  have e : '{' :: (commas (l.map membTxt) ++ ['}']) ++ rest =
      '{' :: (commas (l.map membTxt) ++ '}' :: rest) := by simp
  have e2 : ∃ t', commas (l.map membTxt) ++ '}' :: rest = '"' :: t' := by
    cases l with
    | nil => exact absurd rfl hne
    | cons x l =>
      cases l with
      | nil => exact ⟨_, rfl⟩
      | cons y l => exact ⟨_, rfl⟩
  obtain ⟨t', ht'⟩ := e2
  rw [e, parse]
  have hF' := hF m (by omega)
  · rw [hF']
    rfl
  · intro r heq
    rw [ht'] at heq
    exact absurd (List.cons.inj heq).1 (by decide)

/-! ## The loops of the code -/

theorem sepLoop_false (f : β → Txt) : ∀ (l : List β) (o : Txt),
    sepLoop f l false o = o ++ l.flatMap (fun b => ',' :: f b) := by
  intro l
  induction l with
  | nil => intro o; simp [sepLoop]
  | cons b l ih =>
    intro o
    rw [sepLoop, ih]
    simp [lit]

theorem commas_eq (s : Txt) : ∀ (l : List Txt),
    commas (s :: l) = s ++ l.flatMap (fun t => ',' :: t) := by
  intro l
  induction l generalizing s with
  | nil => simp [commas]
  | cons t l ih => rw [commas_cons, ih]; simp

theorem sepLoop_true (f : β → Txt) (l : List β) (o : Txt) :
    sepLoop f l true o = o ++ commas (l.map f) := by
  cases l with
  | nil => simp [sepLoop, commas]
  | cons b l =>
    rw [sepLoop, sepLoop_false, List.map_cons, commas_eq]
    simp [List.flatMap_map]

theorem foldl_commas (f : β → Txt) : ∀ (l : List β) (o : Txt),
    l.foldl (fun o b => o ++ lit "," ++ f b) o = o ++ l.flatMap (fun b => ',' :: f b) := by
  intro l
  induction l with
  | nil => intro o; simp
  | cons b l ih =>
    intro o
    rw [List.foldl_cons, ih]
    simp [lit]

theorem fmtRow_eq (sh : α → Txt) (r : List α) :
    fmtRow sh r = '[' :: (commas (r.map sh) ++ [']']) := by
  unfold fmtRow
  cases r with
  | nil => simp [lit, commas]
  | cons a l =>
    simp only [foldl_commas, List.map_cons, commas_eq]
    simp [lit, List.flatMap_map]

theorem fmt_eq (sh : α → Txt) (m : List (List α)) :
    fmt sh m = '[' :: (commas (m.map (fmtRow sh)) ++ [']']) := by
  unfold fmt
  cases m with
  | nil => simp [lit, commas]
  | cons a l =>
    simp only [foldl_commas, List.map_cons, commas_eq]
    simp [lit, List.flatMap_map]

/-! ## The values -/

/-- A matrix: an array of rows. -/
def matJ (sh : α → Txt) (m : List (List α)) : J := .arr (m.map fun r => .arr (r.map fun a => .num (sh a)))

/-- Key and value. -/
def kv (k : String) (v : J) : Txt × J := (k.toList, v)

/-- A component: an object with type, weight, mean and covariance. -/
def gaussJ (sh : α → Txt) (g : Gauss α) : J :=
  .obj [kv "type" (.str ['G']), kv "w" (.num (sh g.w)), kv "x" (matJ sh g.x), kv "P" (matJ sh g.P)]

/-- A mixture: an object with type and the array of components. -/
def gmJ (sh : α → Txt) (c : List (Gauss α)) : J :=
  .obj [kv "type" (.str ['G', 'M']), kv "c" (.arr (c.map (gaussJ sh)))]

/-- An unsigned number. -/
def natJ (n : Nat) : J := .num (Nat.repr n).toList

/-- A target. -/
def tgtJ (sh : α → Txt) (t : Tgt α) : J :=
  .obj [kv "id" (natJ t.id), kv "cid" (natJ t.cid), kv "la" (.str [t.la.char]), kv "r" (.num (sh t.r)),
    kv "pdf" (gmJ sh t.c)]

/-- A tracker: an object with the array of targets. -/
def trackerJ (sh : α → Txt) (ts : List (Tgt α)) : J := .obj [kv "targets" (.arr (ts.map (tgtJ sh)))]

/-- A target summary. -/
def summaryJ (sh : α → Txt) (t : Summary α) : J :=
  .obj [kv "type" (.str ['T']), kv "id" (natJ t.id), kv "w" (.num (sh t.w)), kv "x" (matJ sh t.x),
    kv "P" (matJ sh t.P)]

/-- A report. -/
def reportJ (sh : α → Txt) (r : Report α) : J :=
  .obj [kv "type" (.str ['G', 'R']), kv "x" (matJ sh r.x), kv "P" (matJ sh r.P)]

/-- A cluster: its reports and its targets. -/
def clusterJ (sh : α → Txt) (rs : List (Report α)) (ts : List (Tgt α)) : J :=
  .obj [kv "type" (.str ['C', 'L']), kv "R" (.arr (rs.map (reportJ sh))),
    kv "T" (.arr (ts.map (tgtJ sh)))]

theorem isNum_nat (n : Nat) : isNum (Nat.repr n).toList = true := by
  have h1 : (Nat.repr n).toList = Nat.toDigits 10 n := by
    rw [Nat.repr_eq_ofList_toDigits, String.toList_ofList]
  rw [h1]
  have hd : ∀ c ∈ Nat.toDigits 10 n, c.isDigit = true := fun c hc =>
    Nat.isDigit_of_mem_toDigits (by omega) (by omega) hc
  have hlead : ∀ n : Nat, 0 < n → ∃ c l, Nat.toDigits 10 n = c :: l ∧ c ≠ '0' := by
    intro n
    induction n using Nat.strongRecOn with
    | _ n ih =>
      intro hn
      rcases Nat.lt_or_ge n 10 with h | h
      · refine ⟨_, [], Nat.toDigits_of_lt_base h, ?_⟩
        have : n = 1 ∨ n = 2 ∨ n = 3 ∨ n = 4 ∨ n = 5 ∨ n = 6 ∨ n = 7 ∨ n = 8 ∨ n = 9 := by omega
        rcases this with rfl | rfl | rfl | rfl | rfl | rfl | rfl | rfl | rfl <;> decide
      · obtain ⟨c, l, h2, h3⟩ := ih (n / 10) (by omega) (by omega)
        refine ⟨c, l ++ [(n % 10).digitChar], ?_, h3⟩
        rw [Nat.toDigits_of_base_le (by omega) h, h2]
        rfl
  have tw : (Nat.toDigits 10 n).takeWhile Char.isDigit = Nat.toDigits 10 n := by
    rw [List.takeWhile_eq_self_iff]
    exact hd
  have dw : (Nat.toDigits 10 n).dropWhile Char.isDigit = [] := by
    rw [List.dropWhile_eq_nil_iff]
    exact hd
  have hu : isUnsigned (Nat.toDigits 10 n) = true := by
    unfold isUnsigned
    rw [tw, dw]
    rcases Nat.eq_zero_or_pos n with rfl | hn
    · decide
    · obtain ⟨c, l, h2, h3⟩ := hlead n hn
      rw [h2]
      simp [h3, isFrac]
  unfold isNum
  split
  · rename_i l heq
    have := hd '-' (by rw [heq]; simp)
    exact absurd this (by decide)
  · exact hu

section

variable {sh : α → Txt} (hs : ∀ a, isNum (sh a) = true)

include hs

theorem good_mat (m : List (List α)) : Good (fmt sh m) (matJ sh m) := by
  have row : ∀ r : List α, Good (fmtRow sh r) (.arr (r.map fun a => .num (sh a))) := by
    intro r
    rw [fmtRow_eq]
    have := good_arr (r.map fun a => (sh a, J.num (sh a))) (by
      intro x hx
      obtain ⟨a, -, rfl⟩ := List.mem_map.1 hx
      exact good_num (hs a))
    simpa [List.map_map, Function.comp_def] using this
  rw [fmt_eq]
  have := good_arr (m.map fun r => (fmtRow sh r, J.arr (r.map fun a => .num (sh a)))) (by
    intro x hx
    obtain ⟨a, -, rfl⟩ := List.mem_map.1 hx
    exact row a)
  simpa [List.map_map, Function.comp_def, matJ] using this

theorem good_gauss (g : Gauss α) : Good (g.repr sh) (gaussJ sh g) := by
  have := good_obj [("type".toList, ('"' :: (['G'] ++ ['"'])), .str ['G']),
    ("w".toList, sh g.w, .num (sh g.w)), ("x".toList, fmt sh g.x, matJ sh g.x),
    ("P".toList, fmt sh g.P, matJ sh g.P)] (by simp) (by
      simp only [List.mem_cons, List.not_mem_nil, or_false]
      rintro x (rfl | rfl | rfl | rfl)
      · exact ⟨rfl, good_str (by decide)⟩
      · exact ⟨rfl, good_num (hs _)⟩
      · exact ⟨rfl, good_mat hs _⟩
      · exact ⟨rfl, good_mat hs _⟩)
  simpa [Gauss.repr, gaussJ, kv, lit, commas, membTxt] using this

theorem good_list {f : β → Txt} {v : β → J} (h : ∀ b, Good (f b) (v b)) (l : List β) :
    Good ('[' :: (commas (l.map f) ++ [']'])) (.arr (l.map v)) := by
  have := good_arr (l.map fun b => (f b, v b)) (by
    intro x hx
    obtain ⟨a, -, rfl⟩ := List.mem_map.1 hx
    exact h a)
  simpa [List.map_map, Function.comp_def] using this

theorem good_gm (c : List (Gauss α)) : Good (gmRepr sh c) (gmJ sh c) := by
  have := good_obj [("type".toList, ('"' :: (['G', 'M'] ++ ['"'])), .str ['G', 'M']),
    ("c".toList, '[' :: (commas (c.map (Gauss.repr sh)) ++ [']']), .arr (c.map (gaussJ sh)))]
    (by simp) (by
      simp only [List.mem_cons, List.not_mem_nil, or_false]
      rintro x (rfl | rfl)
      · exact ⟨rfl, good_str (by decide)⟩
      · exact ⟨rfl, good_list hs (good_gauss hs) c⟩)
  simpa [gmRepr, sepLoop_true, gmJ, kv, lit, commas, membTxt] using this

theorem good_tgt (t : Tgt α) : Good (t.repr sh) (tgtJ sh t) := by
  have := good_obj [("id".toList, (Nat.repr t.id).toList, natJ t.id),
    ("cid".toList, (Nat.repr t.cid).toList, natJ t.cid),
    ("la".toList, ('"' :: ([t.la.char] ++ ['"'])), .str [t.la.char]),
    ("r".toList, sh t.r, .num (sh t.r)), ("pdf".toList, gmRepr sh t.c, gmJ sh t.c)] (by simp) (by
      simp only [List.mem_cons, List.not_mem_nil, or_false]
      rintro x (rfl | rfl | rfl | rfl | rfl)
      · exact ⟨rfl, good_num (isNum_nat _)⟩
      · exact ⟨rfl, good_num (isNum_nat _)⟩
      · exact ⟨rfl, good_str (by cases t.la <;> decide)⟩
      · exact ⟨rfl, good_num (hs _)⟩
      · exact ⟨rfl, good_gm hs _⟩)
  simpa [Tgt.repr, tgtJ, kv, lit, commas, membTxt] using this

/-- What is written of a summary parses. -/
theorem good_summary (t : Summary α) : Good (t.repr sh) (summaryJ sh t) := by
  have := good_obj [("type".toList, ('"' :: (['T'] ++ ['"'])), .str ['T']),
    ("id".toList, (Nat.repr t.id).toList, natJ t.id),
    ("w".toList, sh t.w, .num (sh t.w)), ("x".toList, fmt sh t.x, matJ sh t.x),
    ("P".toList, fmt sh t.P, matJ sh t.P)] (by simp) (by
      simp only [List.mem_cons, List.not_mem_nil, or_false]
      rintro x (rfl | rfl | rfl | rfl | rfl)
      · exact ⟨rfl, good_str (by decide)⟩
      · exact ⟨rfl, good_num (isNum_nat _)⟩
      · exact ⟨rfl, good_num (hs _)⟩
      · exact ⟨rfl, good_mat hs _⟩
      · exact ⟨rfl, good_mat hs _⟩)
  simpa [Summary.repr, summaryJ, kv, lit, commas, membTxt] using this

theorem good_report (r : Report α) : Good (r.repr sh) (reportJ sh r) := by
  have := good_obj [("type".toList, ('"' :: (['G', 'R'] ++ ['"'])), .str ['G', 'R']),
    ("x".toList, fmt sh r.x, matJ sh r.x), ("P".toList, fmt sh r.P, matJ sh r.P)] (by simp) (by
      simp only [List.mem_cons, List.not_mem_nil, or_false]
      rintro x (rfl | rfl | rfl)
      · exact ⟨rfl, good_str (by decide)⟩
      · exact ⟨rfl, good_mat hs _⟩
      · exact ⟨rfl, good_mat hs _⟩)
  simpa [Report.repr, reportJ, kv, lit, commas, membTxt] using this

end

theorem good_elems {f : β → Txt} {v : β → J} (l : List β) (h : ∀ b ∈ l, Good (f b) (v b)) :
    Good ('[' :: (commas (l.map f) ++ [']'])) (.arr (l.map v)) := by
  have := good_arr (l.map fun b => (f b, v b)) (by
    intro x hx
    obtain ⟨a, ha, rfl⟩ := List.mem_map.1 hx
    exact h a ha)
  simpa [List.map_map, Function.comp_def] using this

theorem Good.whole {s : Txt} {v : J} (h : Good s v) : ∃ F, ∀ n, F ≤ n → parse n s = some (v, []) := by
  obtain ⟨F, hF⟩ := h.2 [] (fun c hc => by cases hc)
  exact ⟨F, fun n hn => by simpa using hF n hn⟩

/-- A text that begins neither a composite nor a string nor a number is no value. -/
theorem parse_bad {c : Char} {l : Txt} (hc : c ≠ '[' ∧ c ≠ '{' ∧ c ≠ '"')
    (h : isNum ((c :: l).takeWhile numChar) = false) {n : Nat} : parse n (c :: l) = none := by
  cases n with
  | zero => rw [parse]
  | succ n =>
    rw [parse]
    · rw [h]
      rfl
    · exact fun r e => hc.1 (List.cons.inj e).1
    · exact fun r e => hc.1 (List.cons.inj e).1
    · exact fun r e => hc.2.1 (List.cons.inj e).1
    · exact fun r e => hc.2.1 (List.cons.inj e).1
    · exact fun r e => hc.2.2 (List.cons.inj e).1

/-! ## The property -/

/-- Numbers that print as JSON numbers, for the examples. -/
def shNat (n : Nat) : Txt := (Nat.repr n).toList

theorem shNat_num : ∀ n, isNum (shNat n) = true := isNum_nat

/-- C55: what a tracker writes is a JSON document: an object whose member `targets` is the array of
the targets in order, each an object with its id, cluster id, last action, probability of existence
and mixture, if numbers are written as JSON numbers. -/
theorem C55_tracker {sh : α → Txt} (hs : ∀ a, isNum (sh a) = true) (ts : List (Tgt α)) :
    ∃ F, ∀ n, F ≤ n → parse n (trackerRepr sh ts) = some (trackerJ sh ts, []) := by
  have := good_obj [("targets".toList, '[' :: (commas (ts.map (Tgt.repr sh)) ++ [']']),
      .arr (ts.map (tgtJ sh)))] (by simp) (by
      simp only [List.mem_cons, List.not_mem_nil, or_false]
      rintro x rfl
      exact ⟨rfl, good_elems ts fun t _ => good_tgt hs t⟩)
  apply Good.whole
  simpa [trackerRepr, sepLoop_true, trackerJ, kv, lit, commas, membTxt] using this

/-- Two targets, one with two components and one without any. -/
def tgtsX : List (Tgt Nat) :=
  [⟨3, 1, .correct, 1, [⟨1, [[2], [0]], [[1, 0], [0, 1]]⟩, ⟨7, [[5], [10]], [[4, 1], [1, 4]]⟩]⟩,
   ⟨12, 0, .init, 0, []⟩]

example : ∀ n, isNum (shNat n) = true := shNat_num

example : ∃ F, ∀ n, F ≤ n → parse n (trackerRepr shNat tgtsX) = some (trackerJ shNat tgtsX, []) :=
  C55_tracker shNat_num tgtsX

example : String.ofList (trackerRepr shNat [⟨12, 0, .init, 0, []⟩]) =
    "{\"targets\":[{\"id\":12,\"cid\":0,\"la\":\"i\",\"r\":0,\"pdf\":{\"type\":\"GM\",\"c\":[]}}]}" := by
  decide +kernel

/-- C55: a target. -/
theorem C55_target {sh : α → Txt} (hs : ∀ a, isNum (sh a) = true) (t : Tgt α)
    :
    ∃ F, ∀ n, F ≤ n → parse n (t.repr sh) = some (tgtJ sh t, []) :=
  (good_tgt hs t).whole

example : ∃ F, ∀ n, F ≤ n → parse n ((tgtsX.get ⟨0, by decide⟩).repr shNat) =
    some (tgtJ shNat (tgtsX.get ⟨0, by decide⟩), []) :=
  C55_target shNat_num _

/-- C55: a mixture. -/
theorem C55_mixture {sh : α → Txt} (hs : ∀ a, isNum (sh a) = true) (c : List (Gauss α)) :
    ∃ F, ∀ n, F ≤ n → parse n (gmRepr sh c) = some (gmJ sh c, []) :=
  (good_gm hs c).whole

example : ∃ F, ∀ n, F ≤ n → parse n (gmRepr shNat [⟨1, [[2], [0]], [[1, 0], [0, 1]]⟩]) =
    some (gmJ shNat [⟨1, [[2], [0]], [[1, 0], [0, 1]]⟩], []) :=
  C55_mixture shNat_num _

/-- C55: a target summary. -/
theorem C55_summary {sh : α → Txt} (hs : ∀ a, isNum (sh a) = true) (t : Summary α) :
    ∃ F, ∀ n, F ≤ n → parse n (t.repr sh) = some (summaryJ sh t, []) :=
  (good_summary hs t).whole

example : ∃ F, ∀ n, F ≤ n → parse n (Summary.repr shNat ⟨4, 1, [[2], [0]], [[1, 0], [0, 1]]⟩) =
    some (summaryJ shNat ⟨4, 1, [[2], [0]], [[1, 0], [0, 1]]⟩, []) :=
  C55_summary shNat_num _

/-- C55: a list of reports is the array of the reports in order. -/
theorem C55_reports {sh : α → Txt} (hs : ∀ a, isNum (sh a) = true) (rs : List (Report α)) :
    ∃ F, ∀ n, F ≤ n → parse n (reportsRepr sh rs) = some (.arr (rs.map (reportJ sh)), []) := by
  apply Good.whole
  simpa [reportsRepr, sepLoop_true, lit] using good_elems rs fun r _ => good_report hs r

example : ∃ F, ∀ n, F ≤ n → parse n (reportsRepr shNat [⟨[[1]], [[2]]⟩, ⟨[[3]], [[4]]⟩]) =
    some (.arr ([⟨[[1]], [[2]]⟩, ⟨[[3]], [[4]]⟩].map (reportJ shNat)), []) :=
  C55_reports shNat_num _

/-- C55: a cluster, with its reports and its targets in order. -/
theorem C55_cluster {sh : α → Txt} (hs : ∀ a, isNum (sh a) = true) (rs : List (Report α))
    (ts : List (Tgt α)) :
    ∃ F, ∀ n, F ≤ n → parse n (clusterRepr sh rs ts) = some (clusterJ sh rs ts, []) := by
  have := good_obj [("type".toList, ('"' :: (['C', 'L'] ++ ['"'])), .str ['C', 'L']),
      ("R".toList, '[' :: (commas (rs.map (Report.repr sh)) ++ [']']), .arr (rs.map (reportJ sh))),
      ("T".toList, '[' :: (commas (ts.map (Tgt.repr sh)) ++ [']']), .arr (ts.map (tgtJ sh)))]
    (by simp) (by
      simp only [List.mem_cons, List.not_mem_nil, or_false]
      rintro x (rfl | rfl | rfl)
      · exact ⟨rfl, good_str (by decide)⟩
      · exact ⟨rfl, good_elems rs fun r _ => good_report hs r⟩
      · exact ⟨rfl, good_elems ts fun t _ => good_tgt hs t⟩)
  apply Good.whole
  simpa [clusterRepr, sepLoop_true, clusterJ, kv, lit, commas, membTxt] using this

example : ∃ F, ∀ n, F ≤ n → parse n (clusterRepr shNat [⟨[[1]], [[2]]⟩] tgtsX) =
    some (clusterJ shNat [⟨[[1]], [[2]]⟩] tgtsX, []) :=
  C55_cluster shNat_num _ tgtsX

/-- C55: an oriented box. -/
theorem C55_bbox {sh : α → Txt} (hs : ∀ a, isNum (sh a) = true) (c : List (List α)) :
    ∃ F, ∀ n, F ≤ n → parse n (bboxRepr sh c) =
      some (.obj [kv "type" (.str "BBox".toList), kv "c" (matJ sh c)], []) := by
  have := good_obj [("type".toList, ('"' :: ("BBox".toList ++ ['"'])), .str "BBox".toList),
      ("c".toList, fmt sh c, matJ sh c)]
    (by simp) (by
      simp only [List.mem_cons, List.not_mem_nil, or_false]
      rintro x (rfl | rfl)
      · exact ⟨rfl, good_str (by decide)⟩
      · exact ⟨rfl, good_mat hs c⟩)
  apply Good.whole
  simpa [bboxRepr, kv, lit, commas, membTxt] using this

example : ∃ F, ∀ n, F ≤ n → parse n (bboxRepr shNat [[1, 2, 3, 4], [5, 6, 7, 8]]) =
    some (.obj [kv "type" (.str "BBox".toList), kv "c" (matJ shNat [[1, 2, 3, 4], [5, 6, 7, 8]])], []) :=
  C55_bbox shNat_num _

/-- C55: a particle filter. -/
theorem C55_particles {sh : α → Txt} (hs : ∀ a, isNum (sh a) = true) (w x : List (List α)) :
    ∃ F, ∀ n, F ≤ n → parse n (pfRepr sh w x) =
      some (.obj [kv "type" (.str "PF".toList), kv "w" (matJ sh w), kv "x" (matJ sh x)], []) := by
  have := good_obj [("type".toList, ('"' :: ("PF".toList ++ ['"'])), .str "PF".toList),
      ("w".toList, fmt sh w, matJ sh w), ("x".toList, fmt sh x, matJ sh x)]
    (by simp) (by
      simp only [List.mem_cons, List.not_mem_nil, or_false]
      rintro x (rfl | rfl | rfl)
      · exact ⟨rfl, good_str (by decide)⟩
      · exact ⟨rfl, good_mat hs _⟩
      · exact ⟨rfl, good_mat hs _⟩)
  apply Good.whole
  simpa [pfRepr, kv, lit, commas, membTxt] using this

example : ∃ F, ∀ n, F ≤ n → parse n (pfRepr shNat [[1], [2]] [[3, 4], [5, 6]]) =
    some (.obj [kv "type" (.str "PF".toList), kv "w" (matJ shNat [[1], [2]]),
      kv "x" (matJ shNat [[3, 4], [5, 6]])], []) :=
  C55_particles shNat_num _ _

/-- C55 does not hold for an axis-aligned box: its text is never JSON. -/
theorem C55_aabb_refuted (sh : α → Txt) (x0 y0 x1 y1 : α) :
    ∀ n r, parse n (aabbRepr sh x0 y0 x1 y1) ≠ some r := by
  intro n r
  have e : ∃ l, aabbRepr sh x0 y0 x1 y1 = 'A' :: l := ⟨_, rfl⟩
  obtain ⟨l, e⟩ := e
  rw [e, parse_bad (by decide) (by simp [numChar, isNum, isUnsigned])]
  simp

example : ∀ n r, parse n (aabbRepr shNat 1 2 3 4) ≠ some r := C55_aabb_refuted shNat 1 2 3 4

/-- C55, what the text of an axis-aligned box is instead: the word `AABBox`, and after it, blanks apart, the matrix
with the interval of `x` as its first row and that of `y` as its second. -/
theorem C55_aabb_rest {sh : α → Txt} (hs : ∀ a, isNum (sh a) = true) (x0 y0 x1 y1 : α) :
    (aabbRepr sh x0 y0 x1 y1).take 6 = "AABBox".toList ∧
    ∃ F, ∀ n, F ≤ n → parse n (((aabbRepr sh x0 y0 x1 y1).drop 6).filter (· ≠ ' ')) =
      some (.arr [.arr [.num (sh x0), .num (sh x1)], .arr [.num (sh y0), .num (sh y1)]], []) := by
  refine ⟨by simp [aabbRepr, lit], ?_⟩
  have hf : ∀ a, (sh a).filter (· ≠ ' ') = sh a := fun a => List.filter_eq_self.2 fun c hc => by
    have := isNum_numChar _ (hs a) c hc
    rw [decide_eq_true_iff]
    rintro rfl
    exact absurd this (by decide)
  have e : ((aabbRepr sh x0 y0 x1 y1).drop 6).filter (· ≠ ' ') = fmt sh [[x0, x1], [y0, y1]] := by
    have e1 : (aabbRepr sh x0 y0 x1 y1).drop 6 =
        lit "[[" ++ sh x0 ++ lit ", " ++ sh x1 ++ lit "], [" ++ sh y0 ++ lit ", " ++ sh y1 ++ lit "]]" := by
      simp [aabbRepr, lit]
    rw [e1]
    simp only [List.filter_append, hf]
    simp [fmt, fmtRow, lit]
  rw [e]
  exact (good_mat hs [[x0, x1], [y0, y1]]).whole

example := (C55_aabb_rest shNat_num 1 2 3 4).2

/-- The hypothesis on numbers is needed: `operator<<` writes `nan`, `inf` and `-inf` for the doubles
that are not finite, and with such a weight what a component writes is not JSON. -/
theorem C55_nonfinite_refuted (sh : α → Txt) (g : Gauss α)
    (h : sh g.w = lit "nan" ∨ sh g.w = lit "inf" ∨ sh g.w = lit "-inf" ∨ sh g.w = lit "-nan") :
    ∀ n r, parse n (g.repr sh) ≠ some r := by
  intro n r
  have e : ∃ l, g.repr sh = '{' :: '"' :: ("type".toList ++ '"' :: ':' :: '"' :: (['G'] ++ '"' ::
      ',' :: '"' :: (['w'] ++ '"' :: ':' :: (sh g.w ++ ',' :: l)))) := ⟨_, by
    simp only [Gauss.repr, lit, List.append_assoc]
    rfl⟩
  obtain ⟨l, e⟩ := e
  have bad : ∀ m, parse m (sh g.w ++ ',' :: l) = none := by
    intro m
    have e1 : lit "nan" = ['n', 'a', 'n'] := rfl
    have e2 : lit "inf" = ['i', 'n', 'f'] := rfl
    have e3 : lit "-inf" = ['-', 'i', 'n', 'f'] := rfl
    have e4 : lit "-nan" = ['-', 'n', 'a', 'n'] := rfl
    rw [e1, e2, e3, e4] at h
    rcases h with h | h | h | h <;> rw [h] <;>
      exact parse_bad (by decide) (by simp [numChar, isNum, isUnsigned])
  have memb : ∀ m, parseMembs m ('"' :: (['w'] ++ '"' :: ':' :: (sh g.w ++ ',' :: l))) = none := by
    intro m
    cases m with
    | zero => rw [parseMembs]
    | succ m =>
      rw [parseMembs, parseStr_plain _ _ (by decide)]
      simp only
      rw [bad]
  have str : ∀ m, parse m ('"' :: (['G'] ++ '"' :: ',' :: '"' :: (['w'] ++ '"' :: ':' ::
      (sh g.w ++ ',' :: l)))) = none ∨ parse m ('"' :: (['G'] ++ '"' :: ',' :: '"' :: (['w'] ++
      '"' :: ':' :: (sh g.w ++ ',' :: l)))) =
        some (.str ['G'], ',' :: '"' :: (['w'] ++ '"' :: ':' :: (sh g.w ++ ',' :: l))) := by
    intro m
    cases m with
    | zero => left; rw [parse]
    | succ m =>
      right
      rw [parse, parseStr_plain _ _ (by decide)]
      rfl
  have membs : ∀ m, parseMembs m ('"' :: ("type".toList ++ '"' :: ':' :: '"' :: (['G'] ++ '"' ::
      ',' :: '"' :: (['w'] ++ '"' :: ':' :: (sh g.w ++ ',' :: l))))) = none := by
    intro m
    cases m with
    | zero => rw [parseMembs]
    | succ m =>
      rw [parseMembs, parseStr_plain _ _ (by decide)]
      simp only
      rcases str m with h | h <;> rw [h]
      simp only [memb, Option.map_none]
  rw [e]
  cases n with
  | zero => rw [parse]; simp
  | succ n =>
    rw [parse, membs]
    · simp
    · intro r hr
      exact absurd (List.cons.inj hr).1 (by decide)

example : ∃ (sh : Nat → Txt) (g : Gauss Nat), sh g.w = lit "nan" ∧ sh 0 = lit "0" :=
  ⟨fun n => if n = 0 then lit "0" else lit "nan", ⟨1, [], []⟩, rfl, rfl⟩

end Verif.Json
