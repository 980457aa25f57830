import Verif.Particles.Birth
import Verif.Particles.Update

/-!
# The weights of the particles, along every history (C124)
-/

namespace Verif.Particles

open Matrix
open Verif.Tracker
open Verif.System (LL Rpt head setHead)

/-- `N` particles with weights that are not negative; their sum is one, or at most `10⁻⁸`. -/
def Sound (N : Nat) (c : List Part) : Prop :=
  c.length = N ∧ (∀ g ∈ c, 0 ≤ g.w) ∧ ((c.map GM.Cmp.w).sum = 1 ∨ (c.map GM.Cmp.w).sum ≤ 1 / 100000000)

theorem sum_map_w (c : List Part) (f : Part → X) :
    ((c.map fun g => (⟨f g, g.w⟩ : Part)).map GM.Cmp.w) = c.map GM.Cmp.w := by
  rw [List.map_map]; rfl

theorem Sound.move {N : Nat} {c : List Part} (h : Sound N c) (f : Part → X) :
    Sound N (c.map fun g => ⟨f g, g.w⟩) := by
  refine ⟨by rw [List.length_map]; exact h.1, fun g hg => ?_, by rw [sum_map_w]; exact h.2.2⟩
  obtain ⟨g', hg', rfl⟩ := List.mem_map.1 hg
  exact h.2.1 g' hg'

theorem sum_div (s : ℝ) : ∀ c : List Part,
    ((c.map fun g => (⟨g.x, g.w / s⟩ : Part)).map GM.Cmp.w).sum = (c.map GM.Cmp.w).sum / s := by
  intro c
  induction c with
  | nil => simp
  | cons g l ih => simp only [List.map_cons, List.sum_cons, ih, add_div]

theorem sound_div {N : Nat} {c : List Part} (hN : c.length = N) (h0 : ∀ g ∈ c, 0 ≤ g.w)
    (hs : 1 / 100000000 < (c.map GM.Cmp.w).sum) :
    Sound N (c.map fun g => ⟨g.x, g.w / (c.map GM.Cmp.w).sum⟩) := by
  have hp : (0 : ℝ) < (c.map GM.Cmp.w).sum := lt_trans (by norm_num) hs
  refine ⟨by rw [List.length_map]; exact hN, fun g hg => ?_, Or.inl ?_⟩
  · obtain ⟨g', hg', rfl⟩ := List.mem_map.1 hg
    exact div_nonneg (h0 g' hg') hp.le
  · rw [sum_div, div_self hp.ne']

theorem sound_normalize {N : Nat} {m : PF.Pf X ℝ} (hN : m.c.length = N) (h0 : ∀ g ∈ m.c, 0 ≤ g.w) :
    Sound N (PF.normalize m).c := by
  unfold PF.normalize
  rw [PF.psum_eq]
  split
  · rename_i h
    exact sound_div hN h0 h
  · rename_i h
    exact ⟨hN, h0, Or.inr (not_lt.1 h)⟩

theorem sound_toGlobal {N : Nat} {p : Pdf} (h : Sound N p.pf.c) (k : Opts) : Sound N (toGlobal k p).pf.c := by
  have e : (updateBox k p).pf = p.pf := by unfold updateBox; split <;> rfl
  show Sound N ((updateBox k p).pf.c.map _)
  rw [e]
  exact h.move _

theorem lik_nonneg {sn : PSens} (hD : 0 ≤ sn.pD) (o : LL) (z : Rpt) (x : X) : 0 ≤ sn.lik o z x := by
  have h1 : 0 ≤ sn.pDAt o x := by
    unfold PSens.pDAt
    split <;> simp [hD]
  unfold PSens.lik Kalman.likelihood
  have := z.2.2.le
  positivity

theorem pD_nonneg {sn : PSens} (hD : 0 ≤ sn.pD) (o : LL) (x : X) : 0 ≤ sn.pDAt o x := by
  unfold PSens.pDAt
  split <;> simp [hD]

theorem sound_times {N : Nat} {m : PF.Pf X ℝ} (h : Sound N m.c) {f : X → ℝ} (hf : ∀ x, 0 ≤ f x) :
    Sound N (PF.normalize { m with c := m.c.map fun g => ⟨g.x, g.w * f g.x⟩ }).c := by
  refine sound_normalize (by rw [List.length_map]; exact h.1) fun g hg => ?_
  obtain ⟨g', hg', rfl⟩ := List.mem_map.1 hg
  exact mul_nonneg (h.2.1 g' hg') (hf _)

theorem sound_join {k : Opts} (hk : GM.SortOk k.srt) {p : Pdf} (hv : p.pf.valid = false)
    {w : List ℝ} (hw : ∀ x ∈ w, 0 ≤ x) {qs : List Pdf} (hlen : w.length = qs.length) (hne : qs ≠ [])
    (h : ∀ q ∈ qs, Sound k.N q.pf.c) : Sound k.N (join k p w qs).pf.c := by
  obtain ⟨m, kept, dropped, e, hp, hl, _, _, h1, h2⟩ := PF.C53_join k.srt hk k.N k.u k.is p.pf hv w
    (qs.map fun q => q.pf.c) (by simpa using hlen) hw
    (by
      intro c hc
      obtain ⟨q, hq, rfl⟩ := List.mem_map.1 hc
      exact (h q hq).1)
    (by simpa using hne)
  have h0 : ∀ g ∈ kept, 0 ≤ g.w := by
    intro g hg
    obtain ⟨y, hy, hg'⟩ := List.mem_flatMap.1 (hp.subset (List.mem_append_left _ hg))
    obtain ⟨g', h', rfl⟩ := List.mem_map.1 hg'
    have hz := List.of_mem_zip (a := y.1) (b := y.2) hy
    obtain ⟨q, hq, hy2⟩ := List.mem_map.1 hz.2
    exact mul_nonneg (hw _ hz.1) ((h q hq).2.1 g' (by rw [hy2]; exact h'))
  unfold join
  simp only [e]
  by_cases hs : 1 / 100000000 < (kept.map GM.Cmp.w).sum
  · rw [h1 hs]
    exact sound_div hl h0 hs
  · rw [(h2 (not_lt.1 hs)).1]
    exact ⟨hl, h0, Or.inr (not_lt.1 hs)⟩

theorem sound_compute {k : Opts} (hk : GM.SortOk k.srt) {sn : PSens} (hD : 0 ≤ sn.pD) {prm : Params}
    {pick : ∀ r c, List (Murty.Node r c) → Nat} {fuel : Nat} {wt : ℚ → ℝ} (hwt : ∀ q, 0 ≤ wt q)
    {ts : List (Nat × Tgt Pdf)} {rs : List Rpt} {v : Comp Pdf Rpt}
    (hts : ∀ x ∈ ts, Blind x.2.pdf ∧ Sound k.N x.2.pdf.pf.c)
    (e : compute (env k) (sensor k sn) prm pick fuel wt ts rs = some v) :
    ∀ t ∈ v.ts, Blind t.pdf ∧ Sound k.N t.pdf.pf.c := by
  intro t ht
  refine ⟨blind_compute (fun x hx => (hts x hx).1) e t ht, ?_⟩
  revert t
  unfold compute at e
  simp only at e
  set o := (env k).center (rs.map (env k).rpos ++ ts.map fun t => (env k).pos t.2.pdf) with ho
  set tl := ts.map fun t => (t.1, forth (env k) o t.2) with htl
  have htl' : ∀ x ∈ tl, Blind x.2.pdf ∧ Sound k.N x.2.pdf.pf.c := by
    intro x hx
    obtain ⟨y, hy, rfl⟩ := List.mem_map.1 hx
    exact ⟨blind_toLocal (hts y hy).1 o, (hts y hy).2.move _⟩
  split at e
  · injection e with e
    subst e
    intro t ht
    simp at ht
  · split at e
    · cases e
    · rename_i ac ha
      have hbd := Hyp.hypotheses_bnd hwt ha
      split at e
      · injection e with e
        subst e
        intro t ht
        obtain ⟨y, hy, rfl⟩ := List.mem_map.1 ht
        exact sound_toGlobal (htl' y hy).2 k
      · injection e with e
        subst e
        intro t ht
        simp only [List.mem_ofFn, Set.mem_range] at ht
        obtain ⟨i, rfl⟩ := ht
        obtain ⟨hb, hs⟩ := htl' (tl.get i) (List.get_mem _ _)
        refine sound_toGlobal ?_ k
        unfold corrected
        simp only
        split
        · refine sound_join hk hb.1 ?_ (by simp) (by simp) ?_
          · intro x hx
            simp only [List.mem_ofFn, Set.mem_range] at hx
            obtain ⟨j, rfl⟩ := hx
            exact (hbd.row i j).1
          · intro q hq
            rcases List.mem_append.1 hq with hq | hq
            · obtain ⟨z, _, rfl⟩ := List.mem_map.1 hq
              exact sound_times hs fun x => lik_nonneg hD _ _ x
            · rw [List.mem_singleton] at hq
              subst hq
              exact sound_times hs fun x => pD_nonneg hD _ x
        · exact hs

theorem sound_predict {k : Opts} {F Q : Matrix (Fin 4) (Fin 4) ℝ} {f : ℝ} {t : Tgt Pdf}
    (h : Sound k.N t.pdf.pf.c) :
    Sound k.N (predictTgt (env k) ⟨linearUpdate F Q, f⟩ t).pdf.pf.c := by
  refine sound_toGlobal ?_ k
  have h1 : Sound k.N (linearUpdate F Q (toLocal (pos t.pdf) t.pdf)).pf.c := (h.move _).move _
  exact sound_normalize h1.1 h1.2.1

/-- The calls of a user: as before, with a probability of detection and weights of hypotheses that are not
negative, and `N` draws for every new target. -/
def WCall (k : Opts) : Call Pdf Rpt → Prop
  | .predict m ord => PCall k (.predict m ord)
  | .correct S ch _ _ => (∃ s : PSens, s.fovBox.Valid ∧ 0 ≤ s.pD ∧ (∀ z, (s.draws z).length = k.N) ∧
      S = sensor k s) ∧ ChOk ch ∧ ∀ q, 0 ≤ ch.wt q

theorem WCall.p {k : Opts} {c : Call Pdf Rpt} (h : WCall k c) : PCall k c := by
  cases c with
  | predict m ord => exact h
  | correct S ch scan dflt =>
    obtain ⟨⟨s, h1, _, _, h2⟩, h3, _⟩ := h
    exact ⟨⟨s, h1, h2⟩, h3⟩

/-- **C124, weights** After any history of the tracker with particles, every target has exactly `N` particles;
their weights are not negative, and the sum of the weights is one, or it is at most `10⁻⁸`. -/
theorem C124_weights {k : Opts} (hk : GM.SortOk k.srt) (hN : 0 < k.N) {prm : Params} {fuel : Nat}
    {calls : List (Call Pdf Rpt)} (hc : ∀ c ∈ calls, WCall k c) {s : St Pdf}
    (e : run (env k) prm fuel calls St.empty = some s) (a : Nat) (t : Tgt Pdf) (ht : s.heap a = some t) :
    t.pdf.pf.c.length = k.N ∧ (∀ g ∈ t.pdf.pf.c, 0 ≤ g.w) ∧
    ((t.pdf.pf.c.map fun g => g.w).sum = 1 ∨ (t.pdf.pf.c.map fun g => g.w).sum ≤ 1 / 10 ^ 8) := by
  have : Blind t.pdf ∧ Sound k.N t.pdf.pf.c := by
    refine run_tgt (T := fun t => Blind t.pdf ∧ Sound k.N t.pdf.pf.c) (env_box k) ?_
      (fun c h => pCall_ok (hc c h).p) ?_ e a t ht
    · intro t u _ h2 h
      rw [h2]
      exact h
    · intro c hcm
      have h := hc c hcm
      cases c with
      | predict m ord =>
        intro t hT _
        obtain ⟨_, ⟨pS, q, dT, rfl⟩ | ⟨pS, Q, rfl⟩⟩ := h
        · exact ⟨blind_predict (fun p hp => hp) hT.1, sound_predict hT.2⟩
        · exact ⟨blind_predict (fun p hp => hp) hT.1, sound_predict hT.2⟩
      | correct S ch scan dflt =>
        obtain ⟨⟨sn, _, hD, hd, rfl⟩, _, hw⟩ := h
        refine ⟨fun ts rs v hts _ hv t ht _ => sound_compute hk hD hw hts hv t ht, fun z _ _ _ _ =>
          ⟨blind_construct k _ _ _, ?_⟩⟩
        obtain ⟨h1, h2, h3⟩ := C92_weights k sn z hN (hd z)
        exact ⟨h1, fun g hg => by rw [h2 g hg]; positivity, Or.inl h3⟩
  obtain ⟨_, h1, h2, h3⟩ := this
  refine ⟨h1, h2, ?_⟩
  norm_num
  norm_num at h3
  exact h3

theorem sum_bound (i : Fin 4) (lo hi : ℝ) : ∀ c : List Part, (∀ g ∈ c, 0 ≤ g.w) →
    (∀ g ∈ c, lo ≤ g.x i ∧ g.x i ≤ hi) →
    lo * (c.map fun g => g.w).sum ≤ mean c i ∧ mean c i ≤ hi * (c.map fun g => g.w).sum := by
  intro c
  induction c with
  | nil => intro _ _; simp [mean]
  | cons g l ih =>
    intro h0 hx
    obtain ⟨h1, h2⟩ := ih (fun g h => h0 g (List.mem_cons_of_mem _ h)) fun g h => hx g (List.mem_cons_of_mem _ h)
    obtain ⟨h3, h4⟩ := hx g List.mem_cons_self
    have hw := h0 g List.mem_cons_self
    have e : mean (g :: l) i = g.w * g.x i + mean l i := by
      unfold mean
      simp only [List.map_cons, List.sum_cons, Pi.add_apply, Pi.smul_apply, smul_eq_mul]
    rw [e, List.map_cons, List.sum_cons]
    constructor <;> nlinarith

/-- **C124, position** After any history, the state reported for a target is the mean of its particles in the
proper sense if the sum of the weights is one: every interval that holds a coordinate of all the particles holds
that of the mean.  If the sum is not one, the mean is as good as zero: at most `10⁻⁸` of the largest coordinate. -/
theorem C124_position {k : Opts} (hk : GM.SortOk k.srt) (hN : 0 < k.N) {prm : Params} {fuel : Nat}
    {calls : List (Call Pdf Rpt)} (hc : ∀ c ∈ calls, WCall k c) {s : St Pdf}
    (e : run (env k) prm fuel calls St.empty = some s) (a : Nat) (t : Tgt Pdf) (ht : s.heap a = some t)
    (i : Fin 4) :
    ((t.pdf.pf.c.map fun g => g.w).sum = 1 → ∀ lo hi, (∀ g ∈ t.pdf.pf.c, lo ≤ g.x i ∧ g.x i ≤ hi) →
      lo ≤ mean t.pdf.pf.c i ∧ mean t.pdf.pf.c i ≤ hi) ∧
    ((t.pdf.pf.c.map fun g => g.w).sum ≠ 1 → ∀ M, (∀ g ∈ t.pdf.pf.c, |g.x i| ≤ M) →
      |mean t.pdf.pf.c i| ≤ M / 10 ^ 8) := by
  obtain ⟨hl, h0, h1⟩ := C124_weights hk hN hc e a t ht
  refine ⟨fun hs lo hi hx => ?_, fun hs M hx => ?_⟩
  · have := sum_bound i lo hi _ h0 hx
    rwa [hs, mul_one, mul_one] at this
  · have hs := h1.resolve_left hs
    have hb := sum_bound i (-M) M _ h0 fun g hg => abs_le.1 (hx g hg)
    have hM : 0 ≤ M := by
      have hne : t.pdf.pf.c ≠ [] := by
        intro h
        rw [h, List.length_nil] at hl
        omega
      obtain ⟨g, hg⟩ := List.exists_mem_of_ne_nil _ hne
      exact (abs_nonneg _).trans (hx g hg)
    have : M * (t.pdf.pf.c.map fun g => g.w).sum ≤ M / 10 ^ 8 := by
      rw [div_eq_mul_one_div]
      exact mul_le_mul_of_nonneg_left hs hM
    rw [abs_le]
    constructor <;> linarith

theorem predict_weights {k : Opts} {F Q : Matrix (Fin 4) (Fin 4) ℝ} {f : ℝ} {t : Tgt Pdf} :
    ((t.pdf.pf.c.map GM.Cmp.w).sum = 1 →
      (predictTgt (env k) ⟨linearUpdate F Q, f⟩ t).pdf.pf.c.map GM.Cmp.w = t.pdf.pf.c.map GM.Cmp.w ∧
      (predictTgt (env k) ⟨linearUpdate F Q, f⟩ t).r = t.r * f) ∧
    ((t.pdf.pf.c.map GM.Cmp.w).sum ≤ 1 / 100000000 →
      (predictTgt (env k) ⟨linearUpdate F Q, f⟩ t).r = 0) := by
  set p := linearUpdate F Q (toLocal (pos t.pdf) t.pdf) with hp
  have hw : p.pf.c.map GM.Cmp.w = t.pdf.pf.c.map GM.Cmp.w :=
    (sum_map_w _ _).trans (sum_map_w _ _)
  have hr : (predictTgt (env k) ⟨linearUpdate F Q, f⟩ t).r = t.r * f * (PF.normalize p.pf).eta := rfl
  have hg : (predictTgt (env k) ⟨linearUpdate F Q, f⟩ t).pdf.pf.c.map GM.Cmp.w =
      (PF.normalize p.pf).c.map GM.Cmp.w := by
    show (toGlobal k { p with pf := PF.normalize p.pf }).pf.c.map GM.Cmp.w = _
    have e : (updateBox k { p with pf := PF.normalize p.pf }).pf = PF.normalize p.pf := by
      unfold updateBox; split <;> rfl
    show ((updateBox k { p with pf := PF.normalize p.pf }).pf.c.map _).map GM.Cmp.w = _
    rw [e]
    exact sum_map_w _ _
  constructor
  · intro h
    rw [hr, hg, ← hw]
    have hs : PF.psum p.pf.c = 1 := by rw [PF.psum_eq, hw, h]
    unfold PF.normalize
    rw [hs, if_pos (by norm_num)]
    simp
  · intro h
    rw [hr]
    have hs : ¬ (1 / 100000000 : ℝ) < PF.psum p.pf.c := by rw [PF.psum_eq, hw]; exact not_lt.2 h
    unfold PF.normalize
    rw [if_neg hs, mul_zero]

/-- **C124, prediction** A prediction after any history, for a positive `r_lim`, removes every target whose
weights have not the sum one.  Every target that is left has kept its weights, which have the sum one, and its
probability of existence is multiplied by the probability of survival. -/
theorem C124_predict {k : Opts} (hk : GM.SortOk k.srt) (hN : 0 < k.N) {prm : Params} (hr : 0 < prm.rlim)
    {fuel : Nat} {calls : List (Call Pdf Rpt)} (hc : ∀ c ∈ calls, WCall k c) {s : St Pdf}
    (e : run (env k) prm fuel calls St.empty = some s) (m : Motion Pdf) (ord : List Nat → List Nat)
    (hm : PCall k (.predict m ord)) :
    ∃ s2, predict (env k) prm m ord s = some s2 ∧
      (∀ a u, s2.heap a = some u → ∃ t, s.heap a = some t ∧ u.id = t.id ∧
        (t.pdf.pf.c.map fun g => g.w).sum = 1 ∧
        u.pdf.pf.c.map (fun g => g.w) = t.pdf.pf.c.map (fun g => g.w) ∧ u.r = t.r * m.factor) ∧
      ∀ a t, s.heap a = some t → (t.pdf.pf.c.map fun g => g.w).sum ≠ 1 → s2.heap a = none := by
  obtain ⟨s2, h2, hf⟩ := C28_predict (env_box k) prm fuel calls (fun c h => pCall_ok (hc c h).p) s e m hm.1
  obtain ⟨F, Q, f, rfl⟩ : ∃ F Q f, m = ⟨linearUpdate F Q, f⟩ := by
    rcases hm.2 with ⟨pS, q, dT, rfl⟩ | ⟨pS, Q, rfl⟩
    · exact ⟨_, _, _, rfl⟩
    · exact ⟨_, _, _, rfl⟩
  have key : ∀ a u, s2.heap a = some u → ∃ t, s.heap a = some t ∧ u.id = t.id ∧
        (t.pdf.pf.c.map fun g => g.w).sum = 1 ∧
        u.pdf.pf.c.map (fun g => g.w) = t.pdf.pf.c.map (fun g => g.w) ∧ u.r = t.r * f := by
    intro a u hu
    obtain ⟨g1, _, t, ht, rfl⟩ := (hf a).1 u hu
    obtain ⟨_, _, h3⟩ := C124_weights hk hN hc e a t ht
    obtain ⟨p1, p2⟩ := predict_weights (k := k) (F := F) (Q := Q) (f := f) (t := t)
    rcases h3 with h3 | h3
    · exact ⟨t, ht, rfl, h3, (p1 h3).1, (p1 h3).2⟩
    · rw [p2 (h3.trans (by norm_num))] at g1
      linarith
  refine ⟨s2, h2, key, fun a t ht hne => ?_⟩
  cases hu : s2.heap a with
  | none => rfl
  | some u =>
    obtain ⟨t', ht', _, h1, _⟩ := key a u hu
    rw [ht] at ht'
    cases ht'
    exact absurd h1 hne

/-! ## The effective number of particles -/

/-- `neff`, `pf.hpp:138-142`; `none` is a division by zero, which gives infinity. -/
noncomputable def neff (c : List Part) : Option ℝ :=
  let q := c.foldl (fun k g => k + g.w * g.w) 0
  open Classical in if q = 0 then none else some (1 / q)

theorem foldl_sq : ∀ (c : List Part) (a : ℝ),
    c.foldl (fun k g => k + g.w * g.w) a = a + (c.map fun g => g.w * g.w).sum := by
  intro c
  induction c with
  | nil => intro a; simp
  | cons g l ih => intro a; rw [List.foldl_cons, ih, List.map_cons, List.sum_cons, add_assoc]

/-- The sum of the squared distances from `m`. -/
theorem sum_dev (m : ℝ) : ∀ c : List Part, (c.map fun g => (g.w - m) ^ 2).sum =
    (c.map fun g => g.w * g.w).sum - 2 * m * (c.map fun g => g.w).sum + c.length * m ^ 2 := by
  intro c
  induction c with
  | nil => simp
  | cons g l ih =>
    simp only [List.map_cons, List.sum_cons, ih, List.length_cons, Nat.cast_add, Nat.cast_one]
    ring

/-- A sum of terms that are not negative is zero only if they all are. -/
theorem sum_zero {f : Part → ℝ} : ∀ {c : List Part}, (∀ g ∈ c, 0 ≤ f g) → (c.map f).sum = 0 →
    ∀ g ∈ c, f g = 0 := by
  intro c
  induction c with
  | nil => intro _ _ g hg; cases hg
  | cons a l ih =>
    intro h0 hs g hg
    have h1 : 0 ≤ (l.map f).sum := List.sum_nonneg (by
      intro x hx
      obtain ⟨g', hg', rfl⟩ := List.mem_map.1 hx
      exact h0 g' (List.mem_cons_of_mem _ hg'))
    have ha := h0 a List.mem_cons_self
    rw [List.map_cons, List.sum_cons] at hs
    rcases List.mem_cons.1 hg with rfl | hg
    · linarith
    · exact ih (fun g' h => h0 g' (List.mem_cons_of_mem _ h)) (by linarith) g hg

/-- **C124, effective number** After any history, the effective number of particles of a target whose weights have
the sum one is from one to `N`.  It is `N` exactly if all the weights are equal, and one exactly if every weight is
zero or one, that is, if one particle has all the weight.  It is infinite for a target with weights that are all zero. -/
theorem C124_neff {k : Opts} (hk : GM.SortOk k.srt) (hN : 0 < k.N) {prm : Params} {fuel : Nat}
    {calls : List (Call Pdf Rpt)} (hc : ∀ c ∈ calls, WCall k c) {s : St Pdf}
    (e : run (env k) prm fuel calls St.empty = some s) (a : Nat) (t : Tgt Pdf) (ht : s.heap a = some t) :
    ((t.pdf.pf.c.map fun g => g.w).sum = 1 → ∃ n : ℝ, neff t.pdf.pf.c = some n ∧ 1 ≤ n ∧ n ≤ k.N ∧
      (n = k.N ↔ ∀ g ∈ t.pdf.pf.c, g.w = 1 / k.N) ∧ (n = 1 ↔ ∀ g ∈ t.pdf.pf.c, g.w = 0 ∨ g.w = 1)) ∧
    ((∀ g ∈ t.pdf.pf.c, g.w = 0) → neff t.pdf.pf.c = none) := by
  obtain ⟨hl, h0, -⟩ := C124_weights hk hN hc e a t ht
  generalize t.pdf.pf.c = c at *
  have hn : (0 : ℝ) < k.N := by exact_mod_cast hN
  refine ⟨fun h1 => ?_, fun hz => ?_⟩
  · set q := (c.map fun g => g.w * g.w).sum with hq
    have hle : ∀ g ∈ c, g.w ≤ 1 := by
      intro g hg
      rw [← h1]
      exact List.single_le_sum (by
        intro y hy
        obtain ⟨g', hg', rfl⟩ := List.mem_map.1 hy
        exact h0 g' hg') _ (List.mem_map_of_mem (f := fun g : Part => g.w) hg)
    have hdev := sum_dev (1 / (k.N : ℝ)) c
    rw [h1, hl, ← hq] at hdev
    have hdev0 : 0 ≤ (c.map fun g => (g.w - 1 / (k.N : ℝ)) ^ 2).sum := List.sum_nonneg (by
      intro x hx
      obtain ⟨g', _, rfl⟩ := List.mem_map.1 hx
      positivity)
    have hdev' : (c.map fun g => (g.w - 1 / (k.N : ℝ)) ^ 2).sum = q - 1 / (k.N : ℝ) := by
      rw [hdev]
      field_simp
      ring
    have hgap : ∀ l : List Part, (l.map fun g => g.w * (1 - g.w)).sum =
        (l.map fun g => g.w).sum - (l.map fun g => g.w * g.w).sum := by
      intro l
      induction l with
      | nil => simp
      | cons g l ih => simp only [List.map_cons, List.sum_cons, ih]; ring
    have hgap' := hgap c
    rw [h1, ← hq] at hgap'
    have hgt : ∀ g ∈ c, 0 ≤ g.w * (1 - g.w) := fun g hg =>
      mul_nonneg (h0 g hg) (by linarith [hle g hg])
    have hgap0 : 0 ≤ (c.map fun g => g.w * (1 - g.w)).sum := List.sum_nonneg (by
      intro x hx
      obtain ⟨g', hg', rfl⟩ := List.mem_map.1 hx
      exact hgt g' hg')
    have hqlo : 1 / (k.N : ℝ) ≤ q := by linarith
    have hqhi : q ≤ 1 := by linarith
    have hqp : 0 < q := lt_of_lt_of_le (by positivity) hqlo
    refine ⟨1 / q, ?_, ?_, ?_, ?_, ?_⟩
    · unfold neff
      simp only [foldl_sq, zero_add, ← hq]
      rw [if_neg hqp.ne']
    · rw [le_div_iff₀ hqp]; linarith
    · rw [div_le_iff₀ hqp]
      rw [div_le_iff₀ hn] at hqlo
      linarith
    · constructor
      · intro h g hg
        have : q = 1 / (k.N : ℝ) := by rw [← h]; field_simp
        have := sum_zero (f := fun g => (g.w - 1 / (k.N : ℝ)) ^ 2) (fun g _ => by positivity)
          (by rw [hdev', this, sub_self]) g hg
        have := pow_eq_zero_iff (two_ne_zero) |>.1 this
        linarith
      · intro h
        have : (c.map fun g => (g.w - 1 / (k.N : ℝ)) ^ 2).sum = 0 := by
          apply List.sum_eq_zero
          intro x hx
          obtain ⟨g', hg', rfl⟩ := List.mem_map.1 hx
          rw [h g' hg']
          ring
        have : q = 1 / (k.N : ℝ) := by linarith
        rw [this]
        field_simp
    · constructor
      · intro h g hg
        have : q = 1 := by
          rw [div_eq_one_iff_eq hqp.ne'] at h
          exact h.symm
        have := sum_zero (f := fun g => g.w * (1 - g.w)) hgt (by rw [hgap', this, sub_self]) g hg
        rcases mul_eq_zero.1 this with h | h
        · exact Or.inl h
        · exact Or.inr (by linarith)
      · intro h
        have : (c.map fun g => g.w * (1 - g.w)).sum = 0 := by
          apply List.sum_eq_zero
          intro x hx
          obtain ⟨g', hg', rfl⟩ := List.mem_map.1 hx
          rcases h g' hg' with h | h <;> simp [h]
        have : q = 1 := by linarith
        rw [this]
        norm_num
  · unfold neff
    have : (c.map fun g => g.w * g.w).sum = 0 := by
      apply List.sum_eq_zero
      intro x hx
      obtain ⟨g', hg', rfl⟩ := List.mem_map.1 hx
      simp [hz g' hg']
    simp only [foldl_sq, zero_add, this, if_true]

/-! ## Examples -/

theorem exW : ∀ c ∈ [Call.correct (sensor exOpts exSens0) exCh exOne ⟨System.exRpt 0 0, none, 0⟩],
    WCall exOpts c := by
  intro c hc
  rw [List.mem_singleton.1 hc]
  exact ⟨⟨exSens0, ⟨by show (-90 : ℚ) ≤ 90; norm_num, by show (0 : ℚ) ≤ 180; norm_num⟩,
    by show (0 : ℝ) ≤ 1; norm_num, fun _ => rfl, rfl⟩, exCh_ok, fun q => (Hyp.ew_pos q).le⟩

/-- A target started from a report has two particles; after a prediction over no time it is still there, with the
same weights. -/
example : ∃ (s s2 : St Pdf) (a : Nat) (t u : Tgt Pdf), run (env exOpts) exPrm 0
      [.correct (sensor exOpts exSens0) exCh exOne ⟨System.exRpt 0 0, none, 0⟩] St.empty = some s ∧
    s.heap a = some t ∧ t.pdf.pf.c.length = 2 ∧ predict (env exOpts) exPrm (cv 1 1 0) id s = some s2 ∧
    s2.heap a = some u ∧ (u.pdf.pf.c.map fun g => g.w).sum = 1 ∧ u.r = 4 / 5 ∧
    (∀ g ∈ t.pdf.pf.c, g.x = mean t.pdf.pf.c) := by
  obtain ⟨s, a, t, h1, h2, h3, ⟨x, h4⟩, h5⟩ := exCollapsed
  have hN : 0 < exOpts.N := by show 0 < 2; norm_num
  have hl := (C124_weights exOpts_sort hN exW h1 a t h2).1
  obtain ⟨s2, g1, g2, _⟩ := C124_predict exOpts_sort hN (prm := exPrm) (by show (0 : ℝ) < 1 / 20; norm_num) exW h1
    (cv 1 1 0) id ⟨fun l => List.Perm.refl _, Or.inl ⟨_, _, _, rfl⟩⟩
  obtain ⟨s3, k1, v, hv, _, hr⟩ := C91_kept (by show (0 : ℝ) ≤ 150; norm_num) [((1 : ℝ), (0 : ℝ))]
    (fun c h => (exW c h).p) h1 h2 ⟨x, h4⟩ h5 (by rw [h3]; show (1 : ℝ) / 20 ≤ 4 / 5; norm_num)
  simp only [List.map_cons, List.map_nil, run, step, g1, Option.some.injEq] at k1
  subst k1
  obtain ⟨t', ht', _, q1, q2, _⟩ := g2 a v hv
  rw [h2] at ht'
  cases ht'
  refine ⟨s, s2, a, t, v, h1, h2, hl, g1, hv, by rw [q2]; exact q1, hr.trans h3, fun g hg => ?_⟩
  ext i
  have := (C124_position exOpts_sort hN exW h1 a t h2 i).1 h5 (x i) (x i) fun g hg => by rw [h4 g hg]; simp
  rw [h4 g hg]
  exact le_antisymm this.1 this.2

/-- Of the two particles of a new target both count. -/
example : ∃ (s : St Pdf) (a : Nat) (t : Tgt Pdf), run (env exOpts) exPrm 0
      [.correct (sensor exOpts exSens0) exCh exOne ⟨System.exRpt 0 0, none, 0⟩] St.empty = some s ∧
    s.heap a = some t ∧ ∃ n, neff t.pdf.pf.c = some n ∧ 1 ≤ n ∧ n ≤ 2 := by
  obtain ⟨s, a, t, h1, h2, _, _, h5⟩ := exCollapsed
  obtain ⟨n, g1, g2, g3, _⟩ := (C124_neff exOpts_sort (by show 0 < 2; norm_num) exW h1 a t h2).1 h5
  exact ⟨s, a, t, h1, h2, n, g1, g2, g3.trans (by show ((2 : ℕ) : ℝ) ≤ 2; norm_num)⟩

end Verif.Particles
