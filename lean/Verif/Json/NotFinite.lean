import Verif.Json.Number

/-!
# Numbers that are not finite (C122)

`nan` and `inf` are not numbers of the JSON grammar, so a state with such a number anywhere is not written as
JSON.  The proof does not follow the parser through the text: the characters of a document outside of strings
are brackets, commas, colons and those of numbers.
-/

namespace Verif.Json

variable {α β : Type}

/-- The characters outside of strings; `q` tells whether the text starts inside a string. -/
def out : Bool → Txt → Txt
  | _, [] => []
  | q, c :: l => if c = '"' then out (!q) l else if q then out q l else c :: out q l

/-- Whether the text ends inside a string. -/
def fin : Bool → Txt → Bool
  | q, [] => q
  | q, c :: l => if c = '"' then fin (!q) l else fin q l

theorem fin_append (a b : Txt) : ∀ q, fin q (a ++ b) = fin (fin q a) b := by
  induction a with
  | nil => intro q; rfl
  | cons c l ih =>
    intro q
    simp only [List.cons_append, fin]
    split <;> exact ih _

theorem out_append (a b : Txt) : ∀ q, out q (a ++ b) = out q a ++ out (fin q a) b := by
  induction a with
  | nil => intro q; rfl
  | cons c l ih =>
    intro q
    simp only [List.cons_append, out, fin]
    split
    · exact ih _
    · split
      · exact ih _
      · rw [ih]; rfl

/-- The characters that a document has outside of strings. -/
def okChar (c : Char) : Bool := numChar c || c == '[' || c == ']' || c == '{' || c == '}' || c == ',' || c == ':'

/-- A text that ends outside of strings, and has only these characters outside of strings. -/
def Clean (p : Txt) : Prop := fin false p = false ∧ ∀ c ∈ out false p, okChar c = true

theorem clean_append {a b : Txt} (ha : Clean a) (hb : Clean b) : Clean (a ++ b) := by
  refine ⟨by rw [fin_append, ha.1, hb.1], fun c hc => ?_⟩
  rw [out_append, ha.1, List.mem_append] at hc
  rcases hc with hc | hc
  · exact ha.2 c hc
  · exact hb.2 c hc

theorem clean_char {c : Char} (h : okChar c = true) (hq : c ≠ '"') : Clean [c] := by
  refine ⟨by simp [fin, hq], ?_⟩
  intro d hd
  simp only [out, hq, if_false, Bool.false_eq_true, List.mem_singleton] at hd
  rw [hd]; exact h

theorem clean_num {p : Txt} (h : ∀ c ∈ p, numChar c = true) : Clean p := by
  induction p with
  | nil => exact ⟨rfl, by simp [out]⟩
  | cons c l ih =>
    have hc := h c (by simp)
    exact clean_append (a := [c]) (clean_char (by simp [okChar, hc]) (by rintro rfl; revert hc; decide))
      (ih fun d hd => h d (by simp [hd]))

theorem parseStr_shape : ∀ (s k r : Txt), parseStr s = some (k, r) →
    ∃ p, s = p ++ r ∧ fin true p = false ∧ out true p = [] := by
  intro s
  induction s with
  | nil => intro k r h; simp [parseStr] at h
  | cons c l ih =>
    intro k r h
    rw [parseStr] at h
    split at h
    · rename_i hc
      rw [beq_iff_eq] at hc
      simp only [Option.some.injEq, Prod.mk.injEq] at h
      obtain ⟨-, rfl⟩ := h
      exact ⟨[c], rfl, by simp [fin, hc], by simp [out, hc]⟩
    · rename_i hc
      split at h
      · rw [Option.map_eq_some_iff] at h
        obtain ⟨⟨k', r'⟩, h1, h2⟩ := h
        simp only [Prod.mk.injEq] at h2
        obtain ⟨-, rfl⟩ := h2
        obtain ⟨p, rfl, h3, h4⟩ := ih _ _ h1
        have hc' : c ≠ '"' := by simpa using hc
        exact ⟨c :: p, rfl, by simp [fin, hc', h3], by simp [out, hc', h4]⟩
      · cases h

theorem str_clean {p : Txt} (h3 : fin true p = false) (h4 : out true p = []) : Clean ('"' :: p) :=
  ⟨by simp [fin, h3], by simp [out, h4]⟩

theorem parse_shape (n : Nat) :
    (∀ s v r, parse n s = some (v, r) → ∃ p, s = p ++ r ∧ Clean p) ∧
    (∀ s v r, parseElems n s = some (v, r) → ∃ p, s = p ++ r ∧ Clean p) ∧
    (∀ s v r, parseMembs n s = some (v, r) → ∃ p, s = p ++ r ∧ Clean p) := by
  induction n with
  | zero =>
    refine ⟨?_, ?_, ?_⟩
    · intro s v r h; rw [parse] at h; cases h
    · intro s v r h; rw [parseElems] at h; cases h
    · intro s v r h; rw [parseMembs] at h; cases h
  | succ n ih =>
    obtain ⟨i1, i2, i3⟩ := ih
    have c1 : ∀ c : Char, okChar c = true → c ≠ '"' → ∀ p, Clean p → Clean (c :: p) := fun c h1 h2 p hp =>
      clean_append (a := [c]) (clean_char h1 h2) hp
    have c2 : ∀ c : Char, okChar c = true → c ≠ '"' → ∀ p, Clean p → Clean (p ++ [c]) := fun c h1 h2 p hp =>
      clean_append hp (clean_char h1 h2)
    refine ⟨?_, ?_, ?_⟩
    · intro s v r h
      rw [parse.eq_def] at h
      dsimp only at h
      split at h
      · simp only [Option.some.injEq, Prod.mk.injEq] at h
        obtain ⟨-, rfl⟩ := h
        exact ⟨['[', ']'], rfl, by decide, by decide⟩
      · rw [Option.map_eq_some_iff] at h
        obtain ⟨⟨v', r'⟩, h1, h2⟩ := h
        simp only [Prod.mk.injEq] at h2
        obtain ⟨-, rfl⟩ := h2
        obtain ⟨p, rfl, hp⟩ := i2 _ _ _ h1
        exact ⟨'[' :: p, rfl, c1 _ (by decide) (by decide) p hp⟩
      · simp only [Option.some.injEq, Prod.mk.injEq] at h
        obtain ⟨-, rfl⟩ := h
        exact ⟨['{', '}'], rfl, by decide, by decide⟩
      · rw [Option.map_eq_some_iff] at h
        obtain ⟨⟨v', r'⟩, h1, h2⟩ := h
        simp only [Prod.mk.injEq] at h2
        obtain ⟨-, rfl⟩ := h2
        obtain ⟨p, rfl, hp⟩ := i3 _ _ _ h1
        exact ⟨'{' :: p, rfl, c1 _ (by decide) (by decide) p hp⟩
      · rw [Option.map_eq_some_iff] at h
        obtain ⟨⟨v', r'⟩, h1, h2⟩ := h
        simp only [Prod.mk.injEq] at h2
        obtain ⟨-, rfl⟩ := h2
        obtain ⟨p, rfl, h3, h4⟩ := parseStr_shape _ _ _ h1
        exact ⟨'"' :: p, rfl, str_clean h3 h4⟩
      · split at h
        · simp only [Option.some.injEq, Prod.mk.injEq] at h
          obtain ⟨-, rfl⟩ := h
          exact ⟨_, (List.takeWhile_append_dropWhile).symm, clean_num fun c hc => List.mem_takeWhile_imp hc⟩
        · cases h
    · intro s v r h
      rw [parseElems] at h
      split at h
      · rename_i v1 r1 h1
        rw [Option.map_eq_some_iff] at h
        obtain ⟨⟨v', r'⟩, h2, h3⟩ := h
        simp only [Prod.mk.injEq] at h3
        obtain ⟨-, rfl⟩ := h3
        obtain ⟨p, rfl, hp⟩ := i1 _ _ _ h1
        obtain ⟨p', rfl, hp'⟩ := i2 _ _ _ h2
        exact ⟨p ++ ',' :: p', by simp, clean_append hp (c1 _ (by decide) (by decide) _ hp')⟩
      · rename_i v1 r1 h1
        simp only [Option.some.injEq, Prod.mk.injEq] at h
        obtain ⟨-, rfl⟩ := h
        obtain ⟨p, rfl, hp⟩ := i1 _ _ _ h1
        exact ⟨p ++ [']'], by simp, c2 _ (by decide) (by decide) _ hp⟩
      · cases h
    · intro s v r h
      rw [parseMembs.eq_def] at h
      dsimp only at h
      split at h
      · split at h
        · rename_i k r1 h1
          obtain ⟨p, rfl, h3, h4⟩ := parseStr_shape _ _ _ h1
          have hk : Clean ('"' :: p ++ [':']) := c2 _ (by decide) (by decide) _ (str_clean h3 h4)
          split at h
          · rename_i v1 r2 h5
            rw [Option.map_eq_some_iff] at h
            obtain ⟨⟨v', r'⟩, h6, h7⟩ := h
            simp only [Prod.mk.injEq] at h7
            obtain ⟨-, rfl⟩ := h7
            obtain ⟨p1, rfl, hp1⟩ := i1 _ _ _ h5
            obtain ⟨p2, rfl, hp2⟩ := i3 _ _ _ h6
            exact ⟨('"' :: p ++ [':']) ++ (p1 ++ ',' :: p2), by simp,
              clean_append hk (clean_append hp1 (c1 _ (by decide) (by decide) _ hp2))⟩
          · rename_i v1 r2 h5
            simp only [Option.some.injEq, Prod.mk.injEq] at h
            obtain ⟨-, rfl⟩ := h
            obtain ⟨p1, rfl, hp1⟩ := i1 _ _ _ h5
            exact ⟨('"' :: p ++ [':']) ++ (p1 ++ ['}']), by simp,
              clean_append hk (c2 _ (by decide) (by decide) _ hp1)⟩
          · cases h
        · cases h
      · cases h

/-- A document has no other characters outside of strings. -/
theorem parse_clean {n : Nat} {s : Txt} {v : J} (h : parse n s = some (v, [])) : Clean s := by
  obtain ⟨p, rfl, hp⟩ := (parse_shape n).1 s v [] h
  rwa [List.append_nil]

/-! ## Where the numbers are -/

/-- The text ends outside of strings. -/
abbrev Bal (s : Txt) : Prop := fin false s = false

/-- The characters of `x` are found outside of strings. -/
def Has (x s : Txt) : Prop := ∀ c ∈ x, c ∈ out false s

theorem Bal.append {a b : Txt} (ha : Bal a) (hb : Bal b) : Bal (a ++ b) := by
  show fin false (a ++ b) = false
  rw [fin_append, show fin false a = false from ha, show fin false b = false from hb]

theorem Has.left {x a : Txt} (b : Txt) (h : Has x a) : Has x (a ++ b) := fun c hc => by
  rw [out_append]
  exact List.mem_append_left _ (h c hc)

theorem Has.right {x a b : Txt} (ha : Bal a) (h : Has x b) : Has x (a ++ b) := fun c hc => by
  rw [out_append, ha]
  exact List.mem_append_right _ (h c hc)

theorem free_out {s : Txt} (h : '"' ∉ s) : Bal s ∧ out false s = s := by
  induction s with
  | nil => exact ⟨rfl, rfl⟩
  | cons c l ih =>
    have hc : c ≠ '"' := fun e => h (by simp [e])
    obtain ⟨h1, h2⟩ := ih fun hl => h (by simp [hl])
    exact ⟨by show fin false (c :: l) = false; simp [fin, hc, show fin false l = false from h1],
      by simp [out, hc, h2]⟩

theorem Has.self {s : Txt} (h : '"' ∉ s) : Has s s := fun c hc => by rw [(free_out h).2]; exact hc

theorem bal_nat (n : Nat) : Bal (Nat.repr n).toList :=
  (free_out fun h => by
    have := isNum_numChar _ (isNum_nat n) _ h
    revert this
    decide).1

theorem bal_commas : ∀ {l : List Txt}, (∀ s ∈ l, Bal s) → Bal (commas l)
  | [], _ => rfl
  | [s], h => h s (by simp)
  | s :: s' :: l, h => by
    rw [commas_cons]
    exact (h s (by simp)).append
      (Bal.append (a := [',']) (by decide) (bal_commas fun t ht => h t (by simp [ht])))

theorem has_commas {x : Txt} : ∀ {l : List Txt}, (∀ s ∈ l, Bal s) → ∀ s ∈ l, Has x s → Has x (commas l)
  | [], _, s, hs, _ => by simp at hs
  | [s], _, t, ht, hx => by
    rw [List.mem_singleton] at ht
    subst ht
    exact hx
  | s :: s' :: l, h, t, ht, hx => by
    rw [commas_cons]
    rcases List.mem_cons.1 ht with rfl | ht
    · exact hx.left _
    · exact Has.right (h s (by simp))
        (Has.right (a := [',']) (by decide) (has_commas (fun u hu => h u (by simp [hu])) t ht hx))

theorem bal_brackets {s : Txt} (h : Bal s) : Bal ('[' :: (s ++ [']'])) :=
  Bal.append (a := ['[']) (by decide) (h.append (by decide))

theorem has_brackets {x s : Txt} (h : Has x s) : Has x ('[' :: (s ++ [']'])) :=
  Has.right (a := ['[']) (by decide) (h.left _)

section
variable {sh : α → Txt} (hs : ∀ a, '"' ∉ sh a)
include hs

theorem bal_row (r : List α) : Bal (fmtRow sh r) := by
  rw [fmtRow_eq]
  refine bal_brackets (bal_commas fun s h => ?_)
  obtain ⟨a, -, rfl⟩ := List.mem_map.1 h
  exact (free_out (hs a)).1

theorem bal_fmt (m : List (List α)) : Bal (fmt sh m) := by
  rw [fmt_eq]
  refine bal_brackets (bal_commas fun s h => ?_)
  obtain ⟨a, -, rfl⟩ := List.mem_map.1 h
  exact bal_row hs a

theorem has_fmt {m : List (List α)} {r : List α} (hr : r ∈ m) {a : α} (ha : a ∈ r) : Has (sh a) (fmt sh m) := by
  rw [fmt_eq]
  refine has_brackets (has_commas (fun s h => ?_) (fmtRow sh r) (List.mem_map_of_mem hr) ?_)
  · obtain ⟨r, -, rfl⟩ := List.mem_map.1 h
    exact bal_row hs r
  · rw [fmtRow_eq]
    refine has_brackets (has_commas (fun s h => ?_) (sh a) (List.mem_map_of_mem ha) (Has.self (hs a)))
    obtain ⟨b, -, rfl⟩ := List.mem_map.1 h
    exact (free_out (hs b)).1

theorem bal_gauss (g : Gauss α) : Bal (g.repr sh) := by
  unfold Gauss.repr
  exact ((((((Bal.append (by decide) (by decide)).append (free_out (hs g.w)).1).append (by decide)).append
    (bal_fmt hs g.x)).append (by decide)).append (bal_fmt hs g.P)).append (by decide)

/-- The numbers of a component: its weight, mean and covariance. -/
def _root_.Verif.Json.Gauss.Uses (g : Gauss α) (a : α) : Prop := a = g.w ∨ (∃ r ∈ g.x, a ∈ r) ∨ ∃ r ∈ g.P, a ∈ r

theorem has_gauss {g : Gauss α} {a : α} (h : g.Uses a) : Has (sh a) (g.repr sh) := by
  have b1 : Bal (lit "{\"type\":\"G\"," ++ lit "\"w\":") := by decide
  have b2 := (b1.append (free_out (hs g.w)).1).append (b := lit ",\"x\":") (by decide)
  have b3 := (b2.append (bal_fmt hs g.x)).append (b := lit ",\"P\":") (by decide)
  unfold Gauss.repr
  rcases h with rfl | ⟨r, hr, ha⟩ | ⟨r, hr, ha⟩
  · exact (((((Has.right b1 (Has.self (hs _))).left _).left _).left _).left _).left _
  · exact (((Has.right b2 (has_fmt hs hr ha)).left _).left _).left _
  · exact (Has.right b3 (has_fmt hs hr ha)).left _

theorem gm_eq (c : List (Gauss α)) : gmRepr sh c =
    lit "{\"type\":\"GM\",\"c\":" ++ ('[' :: (commas (c.map (Gauss.repr sh)) ++ [']'])) ++ ['}'] := by
  rw [gmRepr, sepLoop_true]
  simp [lit]

theorem bal_gm (c : List (Gauss α)) : Bal (gmRepr sh c) := by
  rw [gm_eq hs]
  refine (Bal.append (by decide) (bal_brackets (bal_commas fun s h => ?_))).append (by decide)
  obtain ⟨g, -, rfl⟩ := List.mem_map.1 h
  exact bal_gauss hs g

theorem has_gm {c : List (Gauss α)} {g : Gauss α} (hg : g ∈ c) {a : α} (h : g.Uses a) :
    Has (sh a) (gmRepr sh c) := by
  rw [gm_eq hs]
  refine Has.left _ (Has.right (by decide) (has_brackets (has_commas (fun s h => ?_) (g.repr sh)
    (List.mem_map_of_mem hg) (has_gauss hs h))))
  obtain ⟨g, -, rfl⟩ := List.mem_map.1 h
  exact bal_gauss hs g

/-- The numbers of a target: its probability of existence and those of its components. -/
def _root_.Verif.Json.Tgt.Uses (t : Tgt α) (a : α) : Prop := a = t.r ∨ ∃ g ∈ t.c, g.Uses a

theorem bal_head (t : Tgt α) : Bal (lit "{\"id\":" ++ (Nat.repr t.id).toList ++ lit ",\"cid\":" ++
    (Nat.repr t.cid).toList ++ (lit ",\"la\":\"" ++ [t.la.char] ++ lit "\"" ++ lit ",\"r\":")) :=
  ((((Bal.append (by decide) (bal_nat _)).append (by decide)).append (bal_nat _)).append
    (by cases t.la <;> decide))

theorem tgt_eq (t : Tgt α) : t.repr sh = (lit "{\"id\":" ++ (Nat.repr t.id).toList ++ lit ",\"cid\":" ++
    (Nat.repr t.cid).toList ++ (lit ",\"la\":\"" ++ [t.la.char] ++ lit "\"" ++ lit ",\"r\":")) ++ sh t.r ++
    lit ",\"pdf\":" ++ gmRepr sh t.c ++ lit "}" := by
  simp only [Tgt.repr, List.append_assoc]

theorem bal_tgt (t : Tgt α) : Bal (t.repr sh) := by
  rw [tgt_eq hs]
  exact ((((bal_head hs t).append (free_out (hs t.r)).1).append (by decide)).append (bal_gm hs t.c)).append
    (by decide)

theorem has_tgt {t : Tgt α} {a : α} (h : t.Uses a) : Has (sh a) (t.repr sh) := by
  rw [tgt_eq hs]
  rcases h with rfl | ⟨g, hg, h⟩
  · exact (((Has.right (bal_head hs t) (Has.self (hs _))).left _).left _).left _
  · exact (Has.right (((bal_head hs t).append (free_out (hs t.r)).1).append (by decide)) (has_gm hs hg h)).left _

theorem tracker_eq (ts : List (Tgt α)) : trackerRepr sh ts =
    lit "{\"targets\":" ++ ('[' :: (commas (ts.map (Tgt.repr sh)) ++ [']'])) ++ ['}'] := by
  rw [trackerRepr, sepLoop_true]
  simp [lit]

theorem has_tracker {ts : List (Tgt α)} {t : Tgt α} (ht : t ∈ ts) {a : α} (h : t.Uses a) :
    Has (sh a) (trackerRepr sh ts) := by
  rw [tracker_eq hs]
  refine Has.left _ (Has.right (by decide) (has_brackets (has_commas (fun s h => ?_) (t.repr sh)
    (List.mem_map_of_mem ht) (has_tgt hs h))))
  obtain ⟨t, -, rfl⟩ := List.mem_map.1 h
  exact bal_tgt hs t

theorem bal_reports (rs : List (Report α)) : Bal (reportsRepr sh rs) := by
  have e : reportsRepr sh rs = '[' :: (commas (rs.map (Report.repr sh)) ++ [']']) := by
    rw [reportsRepr, sepLoop_true]
    simp [lit]
  rw [e]
  refine bal_brackets (bal_commas fun s h => ?_)
  obtain ⟨r, -, rfl⟩ := List.mem_map.1 h
  unfold Report.repr
  exact ((((Bal.append (by decide) (by decide)).append (bal_fmt hs r.x)).append (by decide)).append
    (bal_fmt hs r.P)).append (by decide)

end

/-! ## Texts that agree -/

theorem fmt_congr {sh sh' : α → Txt} {m : List (List α)} (h : ∀ r ∈ m, ∀ a ∈ r, sh a = sh' a) :
    fmt sh m = fmt sh' m := by
  rw [fmt_eq, fmt_eq]
  have : m.map (fmtRow sh) = m.map (fmtRow sh') := List.map_congr_left fun r hr => by
    rw [fmtRow_eq, fmtRow_eq, List.map_congr_left (h r hr)]
  rw [this]

theorem tracker_congr {sh sh' : α → Txt} {ts : List (Tgt α)}
    (h : ∀ t ∈ ts, ∀ a, t.Uses a → sh a = sh' a) : trackerRepr sh ts = trackerRepr sh' ts := by
  have key : ∀ t ∈ ts, t.repr sh = t.repr sh' := by
    intro t ht
    have hg : t.c.map (Gauss.repr sh) = t.c.map (Gauss.repr sh') := List.map_congr_left fun g hg => by
      unfold Gauss.repr
      rw [h t ht g.w (Or.inr ⟨g, hg, Or.inl rfl⟩),
        fmt_congr fun r hr a ha => h t ht a (Or.inr ⟨g, hg, Or.inr (Or.inl ⟨r, hr, ha⟩)⟩),
        fmt_congr fun r hr a ha => h t ht a (Or.inr ⟨g, hg, Or.inr (Or.inr ⟨r, hr, ha⟩)⟩)]
    unfold Tgt.repr
    rw [h t ht t.r (Or.inl rfl), gmRepr, gmRepr, sepLoop_true, sepLoop_true, hg]
  rw [trackerRepr, trackerRepr, sepLoop_true, sepLoop_true, List.map_congr_left key]

/-! ## The property -/

/-- A double and how many digits after the first it is written with: 5 for a weight or a probability
(`gaussian.hpp:152`, `target.hpp:204`), 14 or 15 for an entry of a matrix (`constants.hpp:6`). -/
abbrev Num := Nat × Dbl

/-- The number as text, `gaussian.hpp:152-154`, `target.hpp:204`. -/
def Num.txt (a : Num) : Txt := a.2.txt (a.1 + 1)

/-- Whether a double is neither infinite nor not-a-number. -/
def Dbl.isFinite : Dbl → Bool
  | .nan _ => false
  | .inf _ => false
  | _ => true

/-- The value of a double that is finite. -/
def Dbl.val : Dbl → ℚ
  | .fin q => q
  | _ => 0

/-- C122: what is read back. -/
theorem C122_read (a : Num) (ha : a.2.isFinite = true) : isNum a.txt = true ∧
    |numVal a.txt - a.2.val| ≤ |a.2.val| / (2 * 10 ^ a.1) := by
  obtain ⟨p, d⟩ := a
  cases d with
  | nan neg => cases ha
  | inf neg => cases ha
  | negZero =>
    refine ⟨by rfl, ?_⟩
    have : numVal (Num.txt (p, .negZero)) = 0 := by
      show numVal ['-', '0'] = 0
      decide +kernel
    rw [this]
    simp [Dbl.val]
  | fin q => exact C122_number (p := p + 1) (by omega) q

theorem txt_free (a : Num) : '"' ∉ a.txt := by
  obtain ⟨p, d⟩ := a
  intro h
  cases d with
  | nan neg => cases neg <;> simp [Num.txt, Dbl.txt, lit] at h
  | inf neg => cases neg <;> simp [Num.txt, Dbl.txt, lit] at h
  | negZero => simp [Num.txt, Dbl.txt] at h
  | fin q =>
    have := isNum_numChar _ (C122_number (p := p + 1) (by omega) q).1 _ h
    revert this
    decide

theorem txt_bad {a : Num} (ha : a.2.isFinite = false) : 'n' ∈ a.txt := by
  obtain ⟨p, d⟩ := a
  cases d with
  | nan neg => simp [Num.txt, Dbl.txt, lit]
  | inf neg => simp [Num.txt, Dbl.txt, lit]
  | negZero => cases ha
  | fin q => cases ha

/-- A text with `nan` or `inf` outside of strings is no document. -/
theorem no_document {a : Num} (ha : a.2.isFinite = false) {s : Txt} (h : Has a.txt s) (n : Nat) (v : J) :
    parse n s ≠ some (v, []) := by
  intro e
  have := (parse_clean e).2 _ (h _ (txt_bad ha))
  revert this
  decide

/-- **C122.** What a tracker writes is JSON exactly if every number in it is finite: the probabilities of
existence, and the weights, means and covariances of all components. -/
theorem C122_json (ts : List (Tgt Num)) :
    (∃ n v, parse n (trackerRepr Num.txt ts) = some (v, [])) ↔
      ∀ t ∈ ts, ∀ a, (a = t.r ∨ ∃ g ∈ t.c, a = g.w ∨ (∃ r ∈ g.x, a ∈ r) ∨ ∃ r ∈ g.P, a ∈ r) →
        a.2.isFinite = true := by
  constructor
  · rintro ⟨n, v, e⟩ t ht a h
    by_contra hf
    exact no_document (by simpa using hf) (has_tracker txt_free ht h) n v e
  · intro h
    set sh : Num → Txt := fun a => if a.2.isFinite = true then a.txt else ['0'] with hsh
    have hs : ∀ a, isNum (sh a) = true := by
      intro a
      simp only [hsh]
      split
      · rename_i hf
        exact (C122_read a hf).1
      · decide
    have e : trackerRepr Num.txt ts = trackerRepr sh ts :=
      tracker_congr fun t ht a ha => (if_pos (h t ht a ha)).symm
    obtain ⟨F, hF⟩ := C55_tracker hs ts
    exact ⟨F, _, by rw [e]; exact hF F (le_refl _)⟩

/-- A target with a covariance that is not a number, and the same target before. -/
example : (¬ ∃ n v, parse n (trackerRepr Num.txt [⟨1, 0, .correct, (5, .fin (4 / 5)),
      [⟨(5, .fin 1), [[(14, .fin 3)], [(14, .negZero)]], [[(14, .fin 1), (14, .nan false)]]⟩]⟩]) = some (v, [])) ∧
    ∃ n v, parse n (trackerRepr Num.txt [⟨1, 0, .correct, (5, .fin (4 / 5)),
      [⟨(5, .fin 1), [[(14, .fin 3)], [(14, .negZero)]], [[(14, .fin 1), (14, .fin 2)]]⟩]⟩]) = some (v, []) := by
  constructor
  · rw [C122_json]
    intro h
    have := h _ (List.mem_singleton_self _) (14, .nan false)
      (Or.inr ⟨_, List.mem_singleton_self _, Or.inr (Or.inr ⟨_, List.mem_singleton_self _, by simp⟩)⟩)
    cases this
  · rw [C122_json]
    rintro t ht a h
    rw [List.mem_singleton] at ht
    subst ht
    simp only [List.mem_cons, List.not_mem_nil, or_false, exists_eq_left, exists_eq_or_imp] at h
    rcases h with rfl | rfl | (rfl | rfl) | rfl | rfl <;> rfl

end Verif.Json
