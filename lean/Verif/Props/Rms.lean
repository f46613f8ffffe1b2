import Verif.Model.MathFn
import Mathlib.Analysis.SpecialFunctions.Exp
import Mathlib.Tactic.Linarith
import Mathlib.Tactic.FieldSimp

/-! # C22, C33, C34, C35: rms, surface efficiency, signal to noise ratio -/

namespace Verif.Props

open Verif Verif.Np Verif.MathFn Finset

/-! ## C33 -/

/-- The closed disc inscribed in an `n x n` grid of the square `[-1, 1]²`. -/
def Spec.inDisc (n : ℕ) (q : Fin n × Fin n) : Prop :=
  (-1 + 2 * ((q.2 : ℕ) : ℝ) / ((n : ℝ) - 1)) ^ 2 + (-1 + 2 * ((q.1 : ℕ) : ℝ) / ((n : ℝ) - 1)) ^ 2 ≤ 1

/-- `r` is the root mean square of the values `f q` over the finite set `S`: `r ≥ 0` and
`r² * |S| = Σ f²`. -/
def Spec.isRms {ι : Type} (S : Finset ι) (f : ι → ℝ) (r : ℝ) : Prop :=
  0 ≤ r ∧ r ^ 2 * S.card = ∑ q ∈ S, f q ^ 2

theorem sqrtMean_spec (s : ℝ) (hs : 0 ≤ s) (k : ℕ) (hk : 0 < k) :
    ∃ r, sqrtMean s k = some r ∧ 0 ≤ r ∧ r ^ 2 * k = s := by
  have hk' : (0 : ℝ) < k := by exact_mod_cast hk
  refine ⟨Real.sqrt (s / k), by simp [sqrtMean, hk.ne'], Real.sqrt_nonneg _, ?_⟩
  rw [Real.sq_sqrt (by positivity)]
  field_simp

theorem nansumSq_nonneg {ι : Type} [Fintype ι] (f : ι → Option ℝ) : 0 ≤ nansumSq f :=
  sum_nonneg fun _ _ => sq_nonneg _

/-- **C33** `circ=False`, two dimensional: root of the sum of squares (nan as 0) over the size. -/
theorem C33_flat {m n : ℕ} (hm : 0 < m) (hn : 0 < n) (f : Fin m × Fin n → Option ℝ) :
    ∃ r, (rms (.d2 m n f) false).1 = .ok (some r) ∧
      Spec.isRms univ (fun q => (f q).getD 0) r := by
  obtain ⟨r, h1, h2, h3⟩ := sqrtMean_spec (nansumSq f) (nansumSq_nonneg f) (m * n) (Nat.mul_pos hm hn)
  refine ⟨r, by simp [rms, h1], h2, ?_⟩
  rw [card_univ, Fintype.card_prod, Fintype.card_fin, Fintype.card_fin]
  exact h3

/-- **C33** `circ=False`, one dimensional. -/
theorem C33_flat1 {n : ℕ} (hn : 0 < n) (f : Fin n → Option ℝ) :
    ∃ r, (rms (.d1 n f) false).1 = .ok (some r) ∧
      Spec.isRms univ (fun q => (f q).getD 0) r := by
  obtain ⟨r, h1, h2, h3⟩ := sqrtMean_spec (nansumSq f) (nansumSq_nonneg f) n hn
  refine ⟨r, by simp [rms, h1], h2, ?_⟩
  rw [card_univ, Fintype.card_fin]
  exact h3

theorem circMask_iff {n : ℕ} (q : Fin n × Fin n) : circMask n n q ↔ ¬ Spec.inDisc n q := by
  unfold circMask Spec.inDisc meshX meshY linspace
  rw [not_le]
  constructor <;> intro h <;> ring_nf at h ⊢ <;> exact h

/-- The array after the masking, for a square array. -/
noncomputable def masked {n : ℕ} (f : Fin n × Fin n → Option ℝ) : Fin n × Fin n → Option ℝ :=
  open Classical in fun q => if Spec.inDisc n q then f q else none

theorem maskNan_sq {n : ℕ} (f : Fin n × Fin n → Option ℝ) :
    maskNan (circMask n n) f = .ok (masked f) := by
  unfold maskNan masked
  rw [dif_pos rfl]
  congr 1
  funext q
  simp only [Fin.cast_eq_self]
  by_cases h : Spec.inDisc n q
  · rw [if_pos h, if_neg (fun h' => (circMask_iff _).1 h' h)]
  · rw [if_neg h, if_pos ((circMask_iff _).2 h)]

theorem rms_true {n : ℕ} (f : Fin n × Fin n → Option ℝ) :
    rms (.d2 n n f) true =
      (.ok (sqrtMean (nansumSq (masked f)) (numReal (masked f))), .d2 n n (masked f)) := by
  unfold rms
  simp only [maskNan_sq]

/-- The entries that are not nan and in the disc. -/
noncomputable def Spec.discEntries {n : ℕ} (f : Fin n × Fin n → Option ℝ) : Finset (Fin n × Fin n) :=
  open Classical in univ.filter fun q => Spec.inDisc n q ∧ f q ≠ none

theorem numReal_masked {n : ℕ} (f : Fin n × Fin n → Option ℝ) :
    numReal (masked f) = (Spec.discEntries f).card := by
  unfold numReal Spec.discEntries
  congr 1
  ext q
  simp only [mem_filter, mem_univ, true_and]
  unfold masked
  split_ifs with h
  · simp [h, Option.isSome_iff_ne_none]
  · simp [h]

theorem nansumSq_masked {n : ℕ} (f : Fin n × Fin n → Option ℝ) :
    nansumSq (masked f) = ∑ q ∈ Spec.discEntries f, ((f q).getD 0) ^ 2 := by
  unfold nansumSq Spec.discEntries
  rw [sum_filter]
  refine sum_congr rfl fun q _ => ?_
  unfold masked
  by_cases h : Spec.inDisc n q
  · by_cases h2 : f q = none
    · simp [h, h2]
    · simp [h, h2]
  · simp [h]

/-- **C33** `circ=True` on a square array: root mean square over the non nan entries of the closed
inscribed disc. -/
theorem C33_circ {n : ℕ} (f : Fin n × Fin n → Option ℝ) (hne : (Spec.discEntries f).Nonempty) :
    ∃ r, (rms (.d2 n n f) true).1 = .ok (some r) ∧
      Spec.isRms (Spec.discEntries f) (fun q => (f q).getD 0) r := by
  have hc : 0 < numReal (masked f) := by
    rw [numReal_masked]
    exact hne.card_pos
  obtain ⟨r, h1, h2, h3⟩ := sqrtMean_spec _ (nansumSq_nonneg (masked f)) _ hc
  refine ⟨r, by rw [rms_true, h1], h2, ?_⟩
  rw [← numReal_masked, h3, nansumSq_masked]

/-- **C33** no such entry: nan. -/
theorem C33_circ_nan {n : ℕ} (f : Fin n × Fin n → Option ℝ) (he : Spec.discEntries f = ∅) :
    (rms (.d2 n n f) true).1 = .ok none := by
  rw [rms_true, numReal_masked, he]
  simp [sqrtMean]

/-- **C33** `circ=True` on a one dimensional or non square array: `IndexError`. -/
theorem C33_indexError {m n : ℕ} (hmn : m ≠ n) (f : Fin m × Fin n → Option ℝ) (k : ℕ)
    (g : Fin k → Option ℝ) :
    (rms (.d2 m n f) true).1 = .error .indexError ∧ (rms (.d1 k g) true).1 = .error .indexError := by
  refine ⟨?_, rfl⟩
  unfold rms
  simp [maskNan, hmn]

/-- **C33** the root mean square is unique, homogeneous, and bounded by a bound of the values. -/
theorem C33_isRms_facts {ι : Type} (S : Finset ι) (hS : S.Nonempty) (f : ι → ℝ) (r c : ℝ)
    (h : Spec.isRms S f r) :
    (∀ r', Spec.isRms S f r' → r' = r) ∧ Spec.isRms S (fun q => c * f q) (|c| * r) ∧
    (∀ M, (∀ q ∈ S, |f q| ≤ M) → r ≤ M) ∧ (∀ q ∈ S, |f q| ≤ r * Real.sqrt S.card) ∧
    (r = 0 ↔ ∀ q ∈ S, f q = 0) := by
  obtain ⟨h1, h2⟩ := h
  have hk : (0 : ℝ) < S.card := by exact_mod_cast hS.card_pos
  refine ⟨fun r' ⟨h3, h4⟩ => ?_, ⟨by positivity, ?_⟩, fun M hM => ?_, fun q hq => ?_, ?_, ?_⟩
  · have : r' ^ 2 = r ^ 2 := mul_right_cancel₀ hk.ne' (h4.trans h2.symm)
    exact (pow_left_inj₀ h3 h1 (by norm_num)).1 this
  · simp_rw [mul_pow]
    rw [← mul_sum, ← h2, sq_abs]
    ring
  · obtain ⟨q, hq⟩ := hS
    have hM0 : 0 ≤ M := (abs_nonneg _).trans (hM q hq)
    have : r ^ 2 * S.card ≤ M ^ 2 * S.card := by
      rw [h2]
      calc ∑ q ∈ S, f q ^ 2 ≤ ∑ q ∈ S, M ^ 2 := sum_le_sum fun q hq => by
            rw [← sq_abs]
            exact pow_le_pow_left₀ (abs_nonneg _) (hM q hq) 2
        _ = M ^ 2 * S.card := by rw [sum_const, nsmul_eq_mul, mul_comm]
    have := le_of_mul_le_mul_right this hk
    exact (pow_le_pow_iff_left₀ h1 hM0 (by norm_num)).1 this
  · have h3 : f q ^ 2 ≤ r ^ 2 * S.card := by
      rw [h2]
      exact single_le_sum (f := fun q => f q ^ 2) (fun _ _ => sq_nonneg _) hq
    rw [← Real.sqrt_sq h1, ← Real.sqrt_mul (sq_nonneg r), ← Real.sqrt_sq_eq_abs]
    exact Real.sqrt_le_sqrt h3
  · rintro rfl q hq
    have h3 : ∑ q ∈ S, f q ^ 2 = 0 := by rw [← h2]; ring
    have := (sum_eq_zero_iff_of_nonneg (fun q _ => sq_nonneg (f q))).1 h3 q hq
    exact pow_eq_zero_iff (two_ne_zero) |>.1 this
  · intro h0
    have h3 : ∑ q ∈ S, f q ^ 2 = 0 := sum_eq_zero fun q hq => by rw [h0 q hq]; ring
    rw [h3] at h2
    rcases mul_eq_zero.1 h2 with h | h
    · exact pow_eq_zero_iff (two_ne_zero) |>.1 h
    · exact absurd h hk.ne'

theorem sqrtMean_smul (c s : ℝ) (k : ℕ) :
    sqrtMean (c ^ 2 * s) k = (sqrtMean s k).map (|c| * ·) := by
  unfold sqrtMean
  split_ifs
  · rfl
  · simp only [Option.map_some, Option.some.injEq]
    rw [mul_div_assoc, Real.sqrt_mul (sq_nonneg c), Real.sqrt_sq_eq_abs]

/-- **C33** homogeneity of the function itself, both modes, nan included (square arrays). -/
theorem C33_homogeneous {n : ℕ} (f : Fin n × Fin n → Option ℝ) (c : ℝ) (circ : Bool) :
    (rms (.d2 n n fun q => (f q).map (c * ·)) circ).1 =
      (rms (.d2 n n f) circ).1.map fun o => o.map (|c| * ·) := by
  have hsum : ∀ g : Fin n × Fin n → Option ℝ, nansumSq (fun q => (g q).map (c * ·)) =
      c ^ 2 * nansumSq g := by
    intro g
    unfold nansumSq
    rw [mul_sum]
    refine sum_congr rfl fun q _ => ?_
    cases hg : g q with
    | none => simp [hg]
    | some v => simp only [hg, Option.map_some, Option.getD_some]; ring
  cases circ
  · show Except.ok (sqrtMean (nansumSq fun q => (f q).map (c * ·)) (n * n)) = _
    rw [hsum, sqrtMean_smul]
    rfl
  · rw [rms_true, rms_true]
    have hm : masked (fun q => (f q).map (c * ·)) = fun q => (masked f q).map (c * ·) := by
      funext q
      unfold masked
      split_ifs <;> rfl
    have hnr : numReal (fun q => (masked f q).map (c * ·)) = numReal (masked f) := by
      unfold numReal
      congr 1
      ext q
      simp
    show Except.ok _ = _
    rw [hm, hsum, hnr, sqrtMean_smul]
    rfl

example : Spec.discEntries (fun _ : Fin 3 × Fin 3 => some (2 : ℝ)) ≠ ∅ := by
  intro h
  have : ((1, 1) : Fin 3 × Fin 3) ∈ Spec.discEntries (fun _ : Fin 3 × Fin 3 => some (2 : ℝ)) := by
    unfold Spec.discEntries Spec.inDisc
    simp only [mem_filter, mem_univ, true_and]
    exact ⟨by norm_num, Option.some_ne_none _⟩
  rw [h] at this
  exact absurd this (notMem_empty _)

/-! ## C22 -/

/-- **C22** the efficiency is `exp(-rms²)`, in `(0, 1]`, and 1 exactly for a vanishing rms. -/
theorem C22_range (a : Arr) (circ : Bool) (e : ℝ) (h : (eRs a circ).1 = .ok (some e)) :
    ∃ r, (rms a circ).1 = .ok (some r) ∧ e = Real.exp (-r ^ 2) ∧ 0 < e ∧ e ≤ 1 ∧ (e = 1 ↔ r = 0) := by
  unfold eRs at h
  simp only at h
  cases hr : (rms a circ).1 with
  | error x =>
    rw [hr] at h
    cases h
  | ok o =>
    rw [hr] at h
    simp only [Except.map, Except.ok.injEq] at h
    cases o with
    | none => cases h
    | some r =>
      simp only [Option.map_some, Option.some.injEq] at h
      subst h
      refine ⟨r, rfl, rfl, Real.exp_pos _, ?_, ?_⟩
      · rw [Real.exp_le_one_iff]
        nlinarith
      · rw [Real.exp_eq_one_iff, neg_eq_zero]
        exact pow_eq_zero_iff two_ne_zero

/-- **C22** it is 1 exactly when the considered values (not nan, in the disc) vanish. -/
theorem C22_one_circ {n : ℕ} (f : Fin n × Fin n → Option ℝ) (hne : (Spec.discEntries f).Nonempty) :
    ∃ e, (eRs (.d2 n n f) true).1 = .ok (some e) ∧
      (e = 1 ↔ ∀ q v, Spec.inDisc n q → f q = some v → v = 0) := by
  obtain ⟨r, h1, h2⟩ := C33_circ f hne
  refine ⟨Real.exp (-r ^ 2), by simp [eRs, h1, Except.map], ?_⟩
  rw [Real.exp_eq_one_iff, neg_eq_zero, pow_eq_zero_iff two_ne_zero,
    (C33_isRms_facts _ hne _ r 1 h2).2.2.2.2]
  unfold Spec.discEntries
  simp only [mem_filter, mem_univ, true_and]
  constructor
  · intro h q v hq hv
    have := h q ⟨hq, by simp [hv]⟩
    simpa [hv] using this
  · rintro h q ⟨hq, hv⟩
    obtain ⟨v, hv⟩ := Option.ne_none_iff_exists'.1 hv
    rw [hv]
    exact h q v hq hv

/-- **C22** the same without `circ`: all values that are not nan vanish. -/
theorem C22_one_flat {m n : ℕ} (hm : 0 < m) (hn : 0 < n) (f : Fin m × Fin n → Option ℝ) :
    ∃ e, (eRs (.d2 m n f) false).1 = .ok (some e) ∧ (e = 1 ↔ ∀ q v, f q = some v → v = 0) := by
  obtain ⟨r, h1, h2⟩ := C33_flat hm hn f
  refine ⟨Real.exp (-r ^ 2), by simp [eRs, h1, Except.map], ?_⟩
  have hne : (univ : Finset (Fin m × Fin n)).Nonempty := ⟨(⟨0, hm⟩, ⟨0, hn⟩), mem_univ _⟩
  rw [Real.exp_eq_one_iff, neg_eq_zero, pow_eq_zero_iff two_ne_zero,
    (C33_isRms_facts _ hne _ r 1 h2).2.2.2.2]
  constructor
  · intro h q v hv
    have := h q (mem_univ _)
    simpa [hv] using this
  · intro h q _
    cases hv : f q with
    | none => rfl
    | some v => exact h q v hv

/-- **C22** strictly decreasing in the rms. -/
theorem C22_decreasing (a b : Arr) (ca cb : Bool) (ra rb ea eb : ℝ)
    (ha : (rms a ca).1 = .ok (some ra)) (hb : (rms b cb).1 = .ok (some rb))
    (hea : (eRs a ca).1 = .ok (some ea)) (heb : (eRs b cb).1 = .ok (some eb))
    (h0 : 0 ≤ ra) (h : ra < rb) : eb < ea := by
  obtain ⟨r, h1, rfl, -⟩ := C22_range a ca ea hea
  obtain ⟨r', h1', rfl, -⟩ := C22_range b cb eb heb
  rw [ha] at h1
  rw [hb] at h1'
  cases h1
  cases h1'
  rw [Real.exp_lt_exp]
  nlinarith

example : ∃ e, (eRs (.d2 2 3 fun q => if q = (0, 1) then none else some 0.5) false).1 = .ok (some e) ∧
    e ≠ 1 := by
  obtain ⟨e, h1, h2⟩ := C22_one_flat (m := 2) (n := 3) (by norm_num) (by norm_num)
    (fun q => if q = (0, 1) then none else some 0.5)
  refine ⟨e, h1, fun h => ?_⟩
  have := h2.1 h (0, 0) 0.5 (by simp)
  norm_num at this

/-! ## C34 -/

/-- A call on one array by its owner. -/
inductive Call
  | rms (circ : Bool)
  | eRs (circ : Bool)

def Call.circ : Call → Bool
  | .rms c => c
  | .eRs c => c

/-- The array after a call. -/
noncomputable def Call.run : Call → Arr → Arr
  | .rms c, a => (MathFn.rms a c).2
  | .eRs c, a => (MathFn.eRs a c).2

/-- The array after a history of calls. -/
noncomputable def after (a : Arr) (h : List Call) : Arr := h.foldl (fun a c => c.run a) a

theorem masked_masked {n : ℕ} (f : Fin n × Fin n → Option ℝ) : masked (masked f) = masked f := by
  funext q
  unfold masked
  split_ifs <;> rfl

theorem call_run {n : ℕ} (f : Fin n × Fin n → Option ℝ) (c : Call) :
    c.run (.d2 n n f) = .d2 n n (if c.circ then masked f else f) := by
  cases c with
  | rms c =>
    cases c
    · rfl
    · show (MathFn.rms _ true).2 = _
      rw [rms_true]
      rfl
  | eRs c =>
    cases c
    · rfl
    · show (MathFn.rms _ true).2 = _
      rw [rms_true]
      rfl

/-- **C34** the content of the array after any history: unchanged without a `circ=True` call,
otherwise nan outside the disc. -/
theorem C34_state {n : ℕ} (f : Fin n × Fin n → Option ℝ) (h : List Call) :
    after (.d2 n n f) h = .d2 n n (if h.any Call.circ then masked f else f) := by
  induction h using List.reverseRecOn with
  | nil => rfl
  | append_singleton h c ih =>
    unfold after at ih ⊢
    rw [List.foldl_append, ih, List.foldl_cons, List.foldl_nil, call_run, List.any_append]
    congr 1
    cases hc : c.circ <;> cases hh : h.any Call.circ <;> simp [hc, masked_masked]

/-- **C34** what is overwritten: exactly the entries outside the disc become nan. -/
theorem C34_overwrite {n : ℕ} (f : Fin n × Fin n → Option ℝ) :
    ∃ g, (rms (.d2 n n f) true).2 = .d2 n n g ∧
      ∀ q, (Spec.inDisc n q → g q = f q) ∧ (¬ Spec.inDisc n q → g q = none) := by
  refine ⟨masked f, by rw [rms_true], fun q => ⟨fun h => ?_, fun h => ?_⟩⟩ <;> simp [masked, h]

/-- **C34** repeating `rms(circ=True)` or asking for the efficiency after any history gives the
same as on the fresh array. -/
theorem C34_repeat {n : ℕ} (f : Fin n × Fin n → Option ℝ) (h : List Call) :
    (rms (after (.d2 n n f) h) true).1 = (rms (.d2 n n f) true).1 ∧
    (eRs (after (.d2 n n f) h) true).1 =
      (rms (.d2 n n f) true).1.map fun o => o.map fun v => Real.exp (-v ^ 2) := by
  have : (rms (after (.d2 n n f) h) true).1 = (rms (.d2 n n f) true).1 := by
    rw [C34_state, rms_true, rms_true]
    split_ifs
    · rw [masked_masked]
    · rfl
  refine ⟨this, ?_⟩
  unfold eRs
  simp only [this]

/-- **C34** `rms(circ=False)` after a history with a `circ=True` call: the sum over the disc,
divided by the full size. -/
theorem C34_history {n : ℕ} (hn : 0 < n) (f : Fin n × Fin n → Option ℝ) (h : List Call)
    (hc : ∃ c ∈ h, c.circ = true) :
    ∃ r, (rms (after (.d2 n n f) h) false).1 = .ok (some r) ∧ 0 ≤ r ∧
      r ^ 2 * (n * n) = ∑ q ∈ Spec.discEntries f, ((f q).getD 0) ^ 2 := by
  have hany : h.any Call.circ = true := by
    rw [List.any_eq_true]
    obtain ⟨c, h1, h2⟩ := hc
    exact ⟨c, h1, h2⟩
  rw [C34_state, if_pos hany]
  obtain ⟨r, h1, h2, h3⟩ := sqrtMean_spec _ (nansumSq_nonneg (masked f)) (n * n) (Nat.mul_pos hn hn)
  refine ⟨r, by simp [rms, h1], h2, ?_⟩
  rw [← nansumSq_masked, ← h3]
  push_cast
  rfl

/-- **C34** so the two orders of calls differ as soon as there is a non zero value outside the
disc: the rms without `circ` is smaller after a call with `circ`. -/
theorem C34_order_matters {n : ℕ} (f : Fin n × Fin n → Option ℝ) (q : Fin n × Fin n) (v : ℝ)
    (hq : ¬ Spec.inDisc n q) (hv : f q = some v) (hv0 : v ≠ 0) :
    ∃ r r', (rms (.d2 n n f) false).1 = .ok (some r) ∧
      (rms (after (.d2 n n f) [.rms true]) false).1 = .ok (some r') ∧ r' < r := by
  have hn : 0 < n := q.1.pos
  obtain ⟨r, h1, h2, h3⟩ := C33_flat hn hn f
  obtain ⟨r', h1', h2', h3'⟩ := C34_history hn f [.rms true] ⟨.rms true, by simp, rfl⟩
  refine ⟨r, r', h1, h1', ?_⟩
  have hlt : ∑ q ∈ Spec.discEntries f, ((f q).getD 0) ^ 2 < ∑ q, ((f q).getD 0) ^ 2 := by
    apply sum_lt_sum_of_subset (subset_univ _) (mem_univ q)
    · unfold Spec.discEntries
      simp [hq]
    · rw [hv]
      exact (sq_nonneg v).lt_of_ne (pow_ne_zero 2 hv0).symm
    · intro _ _ _
      exact sq_nonneg _
  rw [card_univ, Fintype.card_prod, Fintype.card_fin] at h3
  push_cast at h3
  have hk : (0 : ℝ) < (n : ℝ) * n := by
    have : (0 : ℝ) < n := by exact_mod_cast hn
    positivity
  rw [← h3', ← h3] at hlt
  have := lt_of_mul_lt_mul_right hlt hk.le
  exact lt_of_pow_lt_pow_left₀ 2 h2 this

example : ∃ r r', (rms (.d2 2 2 fun _ => some 1) false).1 = .ok (some r) ∧
    (rms (after (.d2 2 2 fun _ => some 1) [.rms true]) false).1 = .ok (some r') ∧ r' < r :=
  C34_order_matters _ (0, 0) 1 (by unfold Spec.inDisc; norm_num) rfl one_ne_zero

/-! ## C35 -/

theorem filterMap_scale {α : Type} (c : ℝ) (f : α → Option ℝ) (l : List α) :
    l.filterMap (fun q => (f q).map (c * ·)) = (l.filterMap f).map (c * ·) := by
  rw [List.map_filterMap]

/-- A finite value times `c`. -/
noncomputable def flScale (c : ℝ) : Fl → Fl
  | .fin r => .fin (c * r)
  | o => o

theorem div_scale (c : ℝ) (hc : 0 < c) (x y : Fl) :
    Fl.div (flScale c x) (flScale c y) = Fl.div x y := by
  have h1 : ∀ r : ℝ, c * r < 0 ↔ r < 0 := fun r => by
    simp [mul_neg_iff, hc, hc.not_gt]
  cases x <;> cases y <;> simp only [flScale, Fl.div, h1]
  rename_i a b
  by_cases hb : b = 0
  · simp only [hb, mul_zero, if_true, Fl.infSign, mul_pos_iff_of_pos_left hc, h1]
  · rw [if_neg hb, if_neg (mul_ne_zero hc.ne' hb), mul_div_mul_left _ _ hc.ne']

theorem std_scale (c : ℝ) (hc : 0 < c) (l : List ℝ) :
    std (l.map (c * ·)) = flScale c (std l) := by
  unfold std
  by_cases h : l.length = 0
  · simp [h, flScale]
  · rw [if_neg (by simpa using h), if_neg h]
    simp only [List.length_map, List.map_map]
    have hsum : (l.map (c * ·)).sum = c * l.sum := by
      rw [List.sum_map_mul_left, List.map_id']
    rw [hsum]
    have : (l.map ((fun v => (v - c * l.sum / l.length) ^ 2) ∘ (c * ·))).sum =
        c ^ 2 * (l.map fun v => (v - l.sum / l.length) ^ 2).sum := by
      rw [← List.sum_map_mul_left]
      congr 1
      apply List.map_congr_left
      intro v _
      simp only [Function.comp]
      ring
    rw [this, mul_div_assoc, Real.sqrt_mul (sq_nonneg c), Real.sqrt_sq hc.le]
    rfl

theorem foldl_max_scale (c : ℝ) (hc : 0 < c) (l : List ℝ) (a : ℝ) :
    (l.map (c * ·)).foldl max (c * a) = c * l.foldl max a := by
  induction l generalizing a with
  | nil => rfl
  | cons b l ih =>
    rw [List.map_cons, List.foldl_cons, List.foldl_cons, ← mul_max_of_nonneg _ _ hc.le, ih]

theorem nanmax_scale {ι : Type} [Fintype ι] (c : ℝ) (hc : 0 < c) (f : ι → Option ℝ) :
    nanmax (fun q => (f q).map (c * ·)) =
      (nanmax f).map (flScale c) := by
  unfold nanmax
  split_ifs
  · rfl
  · rw [filterMap_scale]
    cases univ.toList.filterMap f with
    | nil => rfl
    | cons a l =>
      rw [List.map_cons]
      simp only [foldl_max_scale c hc]
      rfl

/-- **C35** scale invariance of the gridded branch (nan samples allowed; a constant selection gives
an infinity on both sides, an empty one nan). -/
theorem C35_scale {m n : ℕ} (beam : Fin m × Fin n → Option ℝ) (u : Fin n → ℝ) (v : Fin m → ℝ)
    (centre radius c : ℝ) (hc : 0 < c) :
    snr (fun q => (beam q).map (c * ·)) u v centre radius = snr beam u v centre radius := by
  unfold snr
  simp only [filterMap_scale, std_scale c hc, nanmax_scale c hc]
  cases nanmax beam with
  | error e => rfl
  | ok z =>
    simp only [Except.map, bind, Except.bind, pure, Except.pure, div_scale c hc]

/-- **C35** only the samples with `(u - centre)² + (v - centre)² < radius²` enter the noise: beams
that agree there and have the same maximum have the same ratio. -/
theorem C35_local {m n : ℕ} (beam beam' : Fin m × Fin n → Option ℝ) (u : Fin n → ℝ) (v : Fin m → ℝ)
    (centre radius : ℝ) (hmax : nanmax beam = nanmax beam')
    (h : ∀ i j, (u j - centre) ^ 2 + (v i - centre) ^ 2 < radius ^ 2 → beam (i, j) = beam' (i, j)) :
    snr beam u v centre radius = snr beam' u v centre radius := by
  unfold snr
  simp only [hmax, List.filterMap_filter]
  have : ∀ q : Fin m × Fin n, (if decide ((meshX u v q - centre) ^ 2 +
      (meshY u v q - centre) ^ 2 < radius ^ 2) = true then beam q else none) =
      if decide ((meshX u v q - centre) ^ 2 +
      (meshY u v q - centre) ^ 2 < radius ^ 2) = true then beam' q else none := by
    intro q
    split_ifs with hq
    · exact h q.1 q.2 (of_decide_eq_true hq)
    · rfl
  simp only [this]

/-- **C35** the branch for lists of samples, for an interpolation that commutes with scaling. -/
theorem C35_scale_list {M : ℕ}
    (griddata : (Fin M → ℝ) → (Fin M → ℝ) → (Fin M → ℝ) → (Fin 300 → ℝ) → (Fin 300 → ℝ) →
      Fin 300 × Fin 300 → Option ℝ)
    (beam u v : Fin M → ℝ) (centre radius c : ℝ) (hc : 0 < c)
    (hlin : ∀ a b, griddata u v (fun k => c * beam k) a b =
      fun q => (griddata u v beam a b q).map (c * ·)) :
    snr1 griddata (fun k => c * beam k) u v centre radius = snr1 griddata beam u v centre radius := by
  unfold snr1
  simp only [hlin, C35_scale _ _ _ _ _ c hc]

example (u : Fin 4 → ℝ) (v : Fin 5 → ℝ) (r : ℝ) :
    snr (fun q => (if q.1 = 2 then none else some ((q.2 : ℕ) : ℝ)).map (3 * ·)) u v 0 r =
      snr (fun q => if q.1 = 2 then none else some ((q.2 : ℕ) : ℝ)) u v 0 r :=
  C35_scale _ u v 0 r 3 (by norm_num)

theorem sum_selected {ι : Type} [Fintype ι] (p : ι → Prop) [DecidablePred p] (f : ι → Option ℝ)
    (S : Finset ι) (hS : ∀ q, q ∈ S ↔ p q ∧ f q ≠ none) (g : ℝ → ℝ) :
    (((univ.toList.filter fun q => p q).filterMap f).map g).sum = ∑ q ∈ S, g ((f q).getD 0) := by
  classical
  have hS' : S = univ.filter fun q => p q ∧ f q ≠ none := by ext q; simp [hS]
  rw [hS', sum_filter, ← sum_map_toList]
  induction (univ : Finset ι).toList with
  | nil => rfl
  | cons a l ih =>
    by_cases hp : p a
    · cases hf : f a with
      | none => simp [hp, hf, ih]
      | some x => simp [hp, hf, ih]
    · simp [hp, ih]

theorem length_selected {ι : Type} [Fintype ι] (p : ι → Prop) [DecidablePred p] (f : ι → Option ℝ)
    (S : Finset ι) (hS : ∀ q, q ∈ S ↔ p q ∧ f q ≠ none) :
    (((univ.toList.filter fun q => p q).filterMap f).length : ℝ) = S.card := by
  have := sum_selected p f S hS fun _ => 1
  simpa using this

theorem foldl_max_mem (l : List ℝ) (a : ℝ) :
    (l.foldl max a ∈ a :: l) ∧ ∀ x ∈ a :: l, x ≤ l.foldl max a := by
  induction l generalizing a with
  | nil => simp
  | cons b l ih =>
    obtain ⟨h1, h2⟩ := ih (max a b)
    simp only [List.foldl_cons]
    have h3 := h2 (max a b) (by simp)
    refine ⟨?_, fun x hx => ?_⟩
    · rcases List.mem_cons.1 h1 with h | h
      · rcases max_choice a b with e | e
        · rw [h, e]; simp
        · rw [h, e]; simp
      · simp [h]
    · rcases List.mem_cons.1 hx with h | h
      · rw [h]; exact (le_max_left _ _).trans h3
      · rcases List.mem_cons.1 h with h | h
        · rw [h]; exact (le_max_right _ _).trans h3
        · exact h2 x (by simp [h])

theorem nanmax_eq {ι : Type} [Fintype ι] (f : ι → Option ℝ) (mx : ℝ) (h1 : ∃ q, f q = some mx)
    (h2 : ∀ q x, f q = some x → x ≤ mx) : nanmax f = .ok (.fin mx) := by
  obtain ⟨q, hq⟩ := h1
  have hne : Fintype.card ι ≠ 0 := (Fintype.card_pos_iff.2 ⟨q⟩).ne'
  unfold nanmax
  rw [if_neg hne]
  have hm : mx ∈ (univ.toList.filterMap f) := by
    rw [List.mem_filterMap]
    exact ⟨q, by simp, hq⟩
  have hb : ∀ x ∈ (univ.toList.filterMap f), x ≤ mx := by
    intro x hx
    rw [List.mem_filterMap] at hx
    obtain ⟨q, -, hq⟩ := hx
    exact h2 q x hq
  cases hl : univ.toList.filterMap f with
  | nil => rw [hl] at hm; simp at hm
  | cons a l =>
    rw [hl] at hm hb
    obtain ⟨h3, h4⟩ := foldl_max_mem l a
    simp only
    rw [le_antisymm (hb _ h3) (h4 _ hm)]

/-- The samples that enter the noise: those that are not nan, in the open disc around
`(centre, centre)`. -/
def Spec.Noise {m n : ℕ} (beam : Fin m × Fin n → Option ℝ) (u : Fin n → ℝ) (v : Fin m → ℝ)
    (centre radius : ℝ) (S : Finset (Fin m × Fin n)) : Prop :=
  ∀ q, q ∈ S ↔ (u q.2 - centre) ^ 2 + (v q.1 - centre) ^ 2 < radius ^ 2 ∧ beam q ≠ none

/-- The largest sample. -/
def Spec.Peak {m n : ℕ} (beam : Fin m × Fin n → Option ℝ) (mx : ℝ) : Prop :=
  (∃ q, beam q = some mx) ∧ ∀ q x, beam q = some x → x ≤ mx

/-- **C35** the ratio: the largest sample over the standard deviation `sigma` (about the mean `mu`) of
the samples in the disc. -/
theorem C35_value {m n : ℕ} (beam : Fin m × Fin n → Option ℝ) (u : Fin n → ℝ) (v : Fin m → ℝ)
    (centre radius : ℝ) (S : Finset (Fin m × Fin n)) (hS : Spec.Noise beam u v centre radius S)
    (mx mu sigma : ℝ) (hmx : Spec.Peak beam mx) (hne : S.Nonempty)
    (hmu : mu * S.card = ∑ q ∈ S, (beam q).getD 0) (h0 : 0 ≤ sigma)
    (hsig : sigma ^ 2 * S.card = ∑ q ∈ S, ((beam q).getD 0 - mu) ^ 2) :
    (sigma ≠ 0 → snr beam u v centre radius = .ok (.fin (mx / sigma))) ∧
    (sigma = 0 → 0 < mx → snr beam u v centre radius = .ok .pinf) := by
  classical
  have hc : (0 : ℝ) < S.card := by exact_mod_cast hne.card_pos
  have hl := length_selected (fun q : Fin m × Fin n => (u q.2 - centre) ^ 2 + (v q.1 - centre) ^ 2 < radius ^ 2)
    beam S hS
  have hs1 := sum_selected (fun q : Fin m × Fin n => (u q.2 - centre) ^ 2 + (v q.1 - centre) ^ 2 < radius ^ 2)
    beam S hS fun x => x
  have hs2 := sum_selected (fun q : Fin m × Fin n => (u q.2 - centre) ^ 2 + (v q.1 - centre) ^ 2 < radius ^ 2)
    beam S hS fun x => (x - mu) ^ 2
  have hstd : std ((univ.toList.filter fun q : Fin m × Fin n =>
      (u q.2 - centre) ^ 2 + (v q.1 - centre) ^ 2 < radius ^ 2).filterMap beam) = .fin sigma := by
    unfold std
    rw [if_neg (by intro h; rw [h] at hl; simp at hl; linarith)]
    simp only [List.map_id'] at hs1
    simp only
    rw [hs1, hl, ← hmu, mul_div_cancel_right₀ _ hc.ne', hs2, ← hsig, mul_div_cancel_right₀ _ hc.ne',
      Real.sqrt_sq h0]
  have he : snr beam u v centre radius = .ok (Fl.div (.fin mx) (.fin sigma)) := by
    unfold snr
    simp only [nanmax_eq beam mx hmx.1 hmx.2, bind, Except.bind, pure, Except.pure]
    rw [← hstd]
    congr! 3
  rw [he]
  refine ⟨fun h => by simp [Fl.div, h], fun h hm => by simp [Fl.div, h, Fl.infSign, hm]⟩

/-- **C35** no sample in the disc: nan. -/
theorem C35_none {m n : ℕ} (beam : Fin m × Fin n → Option ℝ) (u : Fin n → ℝ) (v : Fin m → ℝ)
    (centre radius mx : ℝ) (hS : Spec.Noise beam u v centre radius ∅) (hmx : Spec.Peak beam mx) :
    snr beam u v centre radius = .ok .nan := by
  classical
  have hl := length_selected (fun q : Fin m × Fin n => (u q.2 - centre) ^ 2 + (v q.1 - centre) ^ 2 < radius ^ 2)
    beam ∅ hS
  have hstd : std ((univ.toList.filter fun q : Fin m × Fin n =>
      (u q.2 - centre) ^ 2 + (v q.1 - centre) ^ 2 < radius ^ 2).filterMap beam) = .nan := by
    unfold std
    rw [if_pos (by simpa using hl)]
  have he : snr beam u v centre radius = .ok (Fl.div (.fin mx) .nan) := by
    unfold snr
    simp only [nanmax_eq beam mx hmx.1 hmx.2, bind, Except.bind, pure, Except.pure]
    rw [← hstd]
    congr! 3
  rw [he]
  rfl

/-- Two samples, 1 and 3, near the position and a peak of 10 elsewhere: the ratio is 10. -/
example : snr (m := 1) (n := 3) (fun q => some (![1, 3, 10] q.2)) ![0, 1, 9] ![0] 0 2 = .ok (.fin (10 / 1)) := by
  refine (C35_value _ _ _ _ _ {((0 : Fin 1), (0 : Fin 3)), (0, 1)} ?_ 10 2 1 ⟨⟨(0, 2), rfl⟩, ?_⟩ ⟨(0, 0), by simp⟩
    ?_ zero_le_one ?_).1 one_ne_zero
  · rintro ⟨i, j⟩
    fin_cases i
    fin_cases j <;> norm_num [Matrix.cons_val] <;> exact Option.some_ne_none _
  · rintro ⟨i, j⟩ x hx
    rw [← Option.some.inj hx]
    fin_cases j <;> norm_num [Matrix.cons_val]
  · norm_num [Matrix.cons_val]
  · norm_num [Matrix.cons_val]

end Verif.Props
