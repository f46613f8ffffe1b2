import Verif.Props.DoubleRms
import Mathlib.Data.Int.ModEq
import Mathlib.Tactic.IntervalCases

/-!
# The rms and the efficiency in doubles, continued: C131
-/

namespace Verif.Props

open Verif Finset

/-- The number that an entry contributes: nan contributes none. -/
def Spec.numberOf : Fl → ℝ
  | .fin x => x
  | _ => 0

/-- nan, or a number of a size at which no square overflows. -/
def Spec.Moderate (x : Fl) : Prop := x = .nan ∨ ∃ v, x = .fin v ∧ |v| ≤ 2 ^ 300

/-- The root of the mean of the squares of the entries in `S`. -/
noncomputable def Spec.rootMeanSq {ι : Type} (S : Finset ι) (f : ι → Fl) : ℝ :=
  Real.sqrt ((∑ q ∈ S, Spec.numberOf (f q) ^ 2) / S.card)

/-- The squared distance of a pixel from the centre of the map, in half pixels; the circle has the radius `N - 1`. -/
def Spec.ringSq {N : ℕ} (q : Fin N × Fin N) : ℤ :=
  (2 * ((q.1 : ℕ) : ℤ) - (N - 1)) ^ 2 + (2 * ((q.2 : ℕ) : ℤ) - (N - 1)) ^ 2

theorem moderate_cases {x : Fl} (h : Spec.Moderate x) :
    (x = .nan ∧ Spec.numberOf x = 0 ∨ x = .fin (Spec.numberOf x)) ∧ |Spec.numberOf x| ≤ 2 ^ 300 := by
  rcases h with rfl | ⟨v, rfl, hv⟩
  · exact ⟨Or.inl ⟨rfl, rfl⟩, by simp [Spec.numberOf]⟩
  · exact ⟨Or.inr rfl, hv⟩

/-! ## Lists -/

theorem sum_filter_map (l : List Fl) (p : Fl → Bool) (F : Fl → ℝ) :
    ((l.filter p).map F).sum = (l.map fun x => if p x then F x else 0).sum := by
  induction l with
  | nil => rfl
  | cons a l ih => by_cases ha : p a <;> simp [List.filter_cons, ha, ih]

theorem rows_sum {m n : ℕ} (f : Fin m × Fin n → Fl) (F : Fl → ℝ) : ((Dbl.rows f).map F).sum = ∑ q, F (f q) := by
  unfold Dbl.rows
  rw [List.map_flatMap, List.flatMap_def, List.sum_flatten, List.map_map, ← List.ofFn_eq_map, List.sum_ofFn,
    Fintype.sum_prod_type]
  refine Finset.sum_congr rfl fun i _ => ?_
  rw [Function.comp_apply, List.map_ofFn, List.sum_ofFn]
  rfl

theorem rows_length {m n : ℕ} (f : Fin m × Fin n → Fl) : (Dbl.rows f).length = m * n := by
  unfold Dbl.rows
  simp [List.length_flatMap]

theorem rows_mem {m n : ℕ} {f : Fin m × Fin n → Fl} {x : Fl} (h : x ∈ Dbl.rows f) : ∃ q, f q = x := by
  unfold Dbl.rows at h
  rw [List.mem_flatMap] at h
  obtain ⟨i, -, h⟩ := h
  rw [List.mem_ofFn] at h
  obtain ⟨j, h⟩ := h
  exact ⟨(i, j), h⟩

/-- The rms of a list. -/
theorem listRms_near {rnd : ℝ → Fl} (h : Spec.Rounding rnd) (adds : ∀ k, Dbl.Adds k) (ha : ∀ k, Spec.Once (adds k))
    (l : List Fl) (hl : ∀ x ∈ l, Spec.Moderate x) {D : ℕ} (hd : Spec.depth (adds l.length) ≤ D) (hD : D ≤ 2 ^ 40)
    (h1 : 1 ≤ l.length) (h2 : l.length ≤ 2 ^ 50) {X : ℝ} (hX : (l.map fun x => Spec.numberOf x ^ 2).sum = X) :
    ∃ z, Dbl.sqrtMean rnd (Dbl.nansumSq rnd adds l) l.length = .fin z ∧ Spec.IsDouble z ∧ 0 ≤ z ∧
      |z - Real.sqrt (X / l.length)| ≤ (1.01 * D + 4) / 2 ^ 53 * Real.sqrt (X / l.length) + 2 ^ (-500 : ℤ) := by
  obtain ⟨z, hz1, hz2, hz3, hz4⟩ := rootMean_near h (adds l.length) (ha _) (hd.trans hD) (fun i => l.get i)
    (fun i => Spec.numberOf (l.get i)) (fun i => (moderate_cases (hl _ (List.get_mem l i))).1)
    (fun i => (moderate_cases (hl _ (List.get_mem l i))).2) l.length h1 le_rfl h2
  have e : ∑ i, Spec.numberOf (l.get i) ^ 2 = X := by
    rw [← hX, ← List.sum_ofFn]
    congr 1
    rw [List.ofFn_eq_map, show (fun i => Spec.numberOf (l.get i) ^ 2) = (fun x => Spec.numberOf x ^ 2) ∘ l.get from rfl,
      ← List.map_map, ← List.ofFn_eq_map, List.ofFn_get]
  rw [e] at hz4
  refine ⟨z, hz1, hz2, hz3, hz4.trans ?_⟩
  have hdr : (Spec.depth (adds l.length) : ℝ) ≤ D := by exact_mod_cast hd
  gcongr

/-- **C131.**  `rms` in doubles of a map with nan entries, in any order of the additions: the root of the mean of the
squares, where nan entries count as zeros, up to about one unit of the last place for every addition that an entry goes
through.  The map is left as it was. -/
theorem C131_rms {rnd : ℝ → Fl} (h : Spec.Rounding rnd) (adds : ∀ k, Dbl.Adds k) (ha : ∀ k, Spec.Once (adds k))
    (m n : ℕ) (f : Fin m × Fin n → Fl) (hf : ∀ q, Spec.Moderate (f q)) (h1 : 1 ≤ m * n) (h2 : m * n ≤ 2 ^ 50)
    (hD : Spec.depth (adds (m * n)) ≤ 2 ^ 40) :
    ∃ z, Dbl.rms rnd adds (.d2 m n f) false = (.ok (.fin z), .d2 m n f) ∧ Spec.IsDouble z ∧ 0 ≤ z ∧
      |z - Real.sqrt ((∑ q, Spec.numberOf (f q) ^ 2) / (m * n))| ≤
        (1.01 * Spec.depth (adds (m * n)) + 4) / 2 ^ 53 * Real.sqrt ((∑ q, Spec.numberOf (f q) ^ 2) / (m * n)) +
          2 ^ (-500 : ℤ) := by
  have hlen := rows_length f
  obtain ⟨z, hz1, hz2, hz3, hz4⟩ := listRms_near h adds ha (Dbl.rows f)
    (fun x hx => by obtain ⟨q, rfl⟩ := rows_mem hx; exact hf q) (D := Spec.depth (adds (m * n))) (by rw [hlen]) hD
    (by rwa [hlen]) (by rwa [hlen]) (rows_sum f fun x => Spec.numberOf x ^ 2)
  rw [hlen] at hz1 hz4
  rw [Nat.cast_mul] at hz4
  exact ⟨z, by unfold Dbl.rms; simp only [hz1], hz2, hz3, hz4⟩

/-- **C131.**  The same for a one dimensional array; of the circle it has none. -/
theorem C131_line {rnd : ℝ → Fl} (h : Spec.Rounding rnd) (adds : ∀ k, Dbl.Adds k) (ha : ∀ k, Spec.Once (adds k))
    (n : ℕ) (f : Fin n → Fl) (hf : ∀ q, Spec.Moderate (f q)) (h1 : 1 ≤ n) (h2 : n ≤ 2 ^ 50)
    (hD : Spec.depth (adds n) ≤ 2 ^ 40) :
    (∃ z, Dbl.rms rnd adds (.d1 n f) false = (.ok (.fin z), .d1 n f) ∧ Spec.IsDouble z ∧ 0 ≤ z ∧
      |z - Real.sqrt ((∑ q, Spec.numberOf (f q) ^ 2) / n)| ≤
        (1.01 * Spec.depth (adds n) + 4) / 2 ^ 53 * Real.sqrt ((∑ q, Spec.numberOf (f q) ^ 2) / n) + 2 ^ (-500 : ℤ)) ∧
    Dbl.rms rnd adds (.d1 n f) true = (.error .indexError, .d1 n f) := by
  have hlen : (List.ofFn f).length = n := List.length_ofFn
  obtain ⟨z, hz1, hz2, hz3, hz4⟩ := listRms_near h adds ha (List.ofFn f)
    (fun x hx => by rw [List.mem_ofFn] at hx; obtain ⟨q, rfl⟩ := hx; exact hf q) (D := Spec.depth (adds n))
    (by rw [hlen]) hD (by rwa [hlen]) (by rwa [hlen])
    (show ((List.ofFn f).map fun x => Spec.numberOf x ^ 2).sum = ∑ q, Spec.numberOf (f q) ^ 2 by
      rw [List.map_ofFn, List.sum_ofFn]; rfl)
  rw [hlen] at hz1 hz4
  exact ⟨⟨z, by unfold Dbl.rms; simp only [hz1], hz2, hz3, hz4⟩, rfl⟩

/-! ## The circle -/

theorem linspace_ring {N : ℕ} (hN : 2 ≤ N) (q : Fin N × Fin N) :
    (Np.linspace (-1) 1 N q.1 ^ 2 + Np.linspace (-1) 1 N q.2 ^ 2) * ((N : ℝ) - 1) ^ 2 = (Spec.ringSq q : ℝ) := by
  have hc : ((N : ℝ) - 1) ≠ 0 := by
    have : (2 : ℝ) ≤ N := by exact_mod_cast hN
    linarith
  unfold Np.linspace Spec.ringSq
  push_cast
  field_simp
  ring

/-- The distance of a pixel, in doubles. -/
theorem ring_near {rnd : ℝ → Fl} (h : Spec.Rounding rnd) {N : ℕ} (hN : 2 ≤ N) (hN' : N ≤ 2 ^ 30) (i j : Fin N) :
    ∃ s, Dbl.sumSq rnd (Dbl.linspace rnd (.fin (-1)) (.fin 1) N i) (Dbl.linspace rnd (.fin (-1)) (.fin 1) N j) = .fin s ∧
      |s - (Np.linspace (-1) 1 N i ^ 2 + Np.linspace (-1) 1 N j ^ 2)| ≤ 1 / 2 ^ 47 := by
  have hg := fun i => linspaceD_near h isDouble_one (by norm_num) (by norm_num) hN hN' i
  choose g hg1 hg2 hg3 hg4 using hg
  have hG := fun i => linspace_abs (p := 1) one_pos hN i
  set G := Np.linspace (-1) 1 N with hGd
  have hga : ∀ i, |g i| ≤ 2 := by
    intro i
    have e := abs_add_le (g i - G i) (G i)
    rw [sub_add_cancel] at e
    have := hg3 i
    have := hG i
    norm_num at *
    linarith [hg3 i]
  obtain ⟨s, hs1, -, -, hs2⟩ := sumSq_near h (B := 2) (by simpa using two_pow_le (show 1 ≤ 300 by norm_num)) (hga i) (hga j)
  refine ⟨s, by rw [hg1, hg1, hs1], ?_⟩
  have hsq : ∀ i, |g i ^ 2 - G i ^ 2| ≤ 13 / 2 ^ 53 := by
    intro i
    have e : g i ^ 2 - G i ^ 2 = (g i - G i) * ((g i - G i) + 2 * G i) := by ring
    rw [e, abs_mul]
    have e2 : |(g i - G i) + 2 * G i| ≤ 13 / 6 := by
      refine (abs_add_le _ _).trans ?_
      rw [abs_mul, abs_two]
      have := hG i
      have := hg3 i
      norm_num at *
      linarith [hg3 i]
    calc _ ≤ (6 * 1 / 2 ^ 53) * (13 / 6) := mul_le_mul (hg3 i) e2 (abs_nonneg _) (by norm_num)
      _ = _ := by norm_num
  have hG2 : ∀ i, G i ^ 2 ≤ 1 := fun i => by
    rw [← sq_abs]
    exact pow_le_one₀ (abs_nonneg _) (hG i)
  have hτ := tiny_le (k := -1075) (by norm_num)
  generalize (2 : ℝ) ^ (-1075 : ℤ) = τ at *
  have e1 := abs_le.1 (hsq i)
  have e2 := abs_le.1 (hsq j)
  have e3 := abs_le.1 hs2
  have e4 := hG2 i
  have e5 := hG2 j
  rw [abs_le]
  constructor <;> linarith only [e1.1, e1.2, e2.1, e2.2, e3.1, e3.2, e4, e5, hτ]

/-- The ends of the axes. -/
theorem ring_end {rnd : ℝ → Fl} (h : Spec.Rounding rnd) {N : ℕ} (hN : 2 ≤ N) (hN' : N ≤ 2 ^ 30) (i j : Fin N)
    (hi : 2 * (i : ℕ) = N - 1) (hj : (j : ℕ) = 0 ∨ (j : ℕ) = N - 1) :
    ∃ s t, Dbl.sumSq rnd (Dbl.linspace rnd (.fin (-1)) (.fin 1) N i) (Dbl.linspace rnd (.fin (-1)) (.fin 1) N j) = .fin s ∧
      Dbl.sumSq rnd (Dbl.linspace rnd (.fin (-1)) (.fin 1) N j) (Dbl.linspace rnd (.fin (-1)) (.fin 1) N i) = .fin t ∧
      s ≤ 1 ∧ t ≤ 1 := by
  obtain ⟨g, hg1, hg2, hg3, -⟩ := linspaceD_near h isDouble_one (by norm_num) (by norm_num) hN hN' i
  have hc0 : ((N : ℝ) - 1) ≠ 0 := by
    have : (2 : ℝ) ≤ N := by exact_mod_cast hN
    linarith
  have hc : Np.linspace (-1) 1 N i = 0 := by
    have : 2 * ((i : ℕ) : ℝ) = (N : ℝ) - 1 := by
      have e : 2 * (i : ℕ) + 1 = N := by omega
      have : 2 * ((i : ℕ) : ℝ) + 1 = N := by exact_mod_cast e
      linarith
    unfold Np.linspace
    field_simp
    linarith
  rw [hc, sub_zero] at hg3
  obtain ⟨w, hw, hw1⟩ : ∃ w : ℝ, Dbl.linspace rnd (.fin (-1)) (.fin 1) N j = .fin w ∧ w * w = 1 := by
    rcases hj with hj | hj
    · obtain ⟨w, hw1, -, -, hw4⟩ := linspaceD_near h isDouble_one (by norm_num) (by norm_num) hN hN' j
      exact ⟨w, hw1, by rw [hw4 hj]; norm_num⟩
    · refine ⟨1, ?_, by norm_num⟩
      unfold Dbl.linspace
      rw [if_pos ⟨by omega, by omega⟩]
  have hg0 := abs_nonneg g
  have hgg : g * g ≤ 36 / 2 ^ 106 := by
    rw [← abs_mul_abs_self]
    calc |g| * |g| ≤ (6 * 1 / 2 ^ 53) * (6 * 1 / 2 ^ 53) := mul_le_mul hg3 hg3 hg0 (by norm_num)
      _ = _ := by norm_num
  have hgg0 := mul_self_nonneg g
  have hτ := tiny_le (k := -1075) (by norm_num)
  have hτ' : (2 : ℝ) ^ (-1075 : ℤ) ≤ 1 / 2 ^ 106 := by
    have : (2 : ℝ) ^ (-1075 : ℤ) ≤ 2 ^ (-106 : ℤ) := zpow_le_zpow_right₀ one_le_two (by norm_num)
    refine this.trans (le_of_eq ?_)
    norm_num
  obtain ⟨a, ha1, ha2, ha3⟩ := round_rel h (y := g * g) (by
    rw [abs_of_nonneg hgg0]
    exact hgg.trans ((show (36 / 2 ^ 106 : ℝ) ≤ 2 ^ 0 by norm_num).trans (two_pow_le (by norm_num))))
  rw [abs_of_nonneg hgg0] at ha3
  have ha0 : 0 ≤ a := round_mono h hgg0 (by simp only [abs_zero]; exact isDouble_le isDouble_zero |>.trans_le' (by simp)) (by
    rw [abs_of_nonneg hgg0]
    exact (hgg.trans ((show (36 / 2 ^ 106 : ℝ) ≤ 2 ^ 0 by norm_num).trans (two_pow_le (by norm_num)))).trans_lt
      (two_pow_lt_range (show 900 ≤ 1000 by norm_num))) (rnd_zero h) ha1
  have hab : a ≤ 40 / 2 ^ 106 := by
    generalize (2 : ℝ) ^ (-1075 : ℤ) = τ at *
    have := (abs_le.1 ha3).2
    norm_num at this hgg hτ' ⊢
    linarith
  have hone : Dbl.mul rnd (.fin w) (.fin w) = .fin 1 := by
    show rnd (w * w) = _
    rw [hw1, round_self h isDouble_one]
  have hsq : Dbl.mul rnd (.fin g) (.fin g) = .fin a := ha1
  have hle : ∀ y : ℝ, 1 ≤ y → y ≤ 1 + 40 / 2 ^ 106 → ∃ s, rnd y = .fin s ∧ s ≤ 1 := by
    intro y hy1 hy2
    obtain ⟨s, hs1, hs2, hs3, -⟩ := round_spec h (y := y) (by
      rw [abs_of_nonneg (by linarith)]
      exact (hy2.trans ((show (1 + 40 / 2 ^ 106 : ℝ) ≤ 2 ^ 1 by norm_num).trans (two_pow_le (by norm_num)))).trans_lt
        (two_pow_lt_range (show 900 ≤ 1000 by norm_num)))
    refine ⟨s, hs1, ?_⟩
    by_contra hc
    push Not at hc
    have e1 := double_gap isDouble_one hs2 one_pos hc
    have e2 := hs3 1 isDouble_one
    rw [abs_of_nonneg (show 0 ≤ y - 1 by linarith)] at e2
    have e3 := (abs_le.1 e2).1
    norm_num at e1 hy2
    linarith
  obtain ⟨s, hs1, hs2⟩ := hle (a + 1) (by linarith) (by linarith)
  refine ⟨s, s, ?_, ?_, hs2, hs2⟩
  · unfold Dbl.sumSq
    rw [hg1, hw, hone, hsq]
    exact hs1
  · unfold Dbl.sumSq
    rw [hg1, hw, hone, hsq, show Dbl.add rnd (.fin 1) (.fin a) = rnd (1 + a) from rfl, add_comm]
    exact hs1

theorem ofInt_one {rnd : ℝ → Fl} (h : Spec.Rounding rnd) : Dbl.ofInt rnd 1 = .fin 1 := by
  unfold Dbl.ofInt
  rw [Int.cast_one, round_self h isDouble_one]

/-- Which pixels the mask takes. -/
theorem mask_near {rnd : ℝ → Fl} (h : Spec.Rounding rnd) {N : ℕ} (hN : 2 ≤ N) (hN' : N ≤ 2 ^ 22) (q : Fin N × Fin N) :
    (Spec.ringSq q < ((N : ℤ) - 1) ^ 2 → ¬ Dbl.circMask rnd N N q) ∧
    (((N : ℤ) - 1) ^ 2 < Spec.ringSq q → Dbl.circMask rnd N N q) ∧
    ((2 * (q.1 : ℕ) = N - 1 ∧ ((q.2 : ℕ) = 0 ∨ (q.2 : ℕ) = N - 1) ∨
      2 * (q.2 : ℕ) = N - 1 ∧ ((q.1 : ℕ) = 0 ∨ (q.1 : ℕ) = N - 1)) → ¬ Dbl.circMask rnd N N q) := by
  have hN30 : N ≤ 2 ^ 30 := hN'.trans (by norm_num)
  obtain ⟨s, hs1, hs2⟩ := ring_near h hN hN30 q.2 q.1
  have hmask : Dbl.circMask rnd N N q ↔ 1 < s := by
    unfold Dbl.circMask Np.meshX Np.meshY
    rw [hs1, ofInt_one h]
    rfl
  have hring := linspace_ring hN q
  rw [add_comm] at hring
  have hc1 : (1 : ℝ) ≤ (N : ℝ) - 1 := by
    have : (2 : ℝ) ≤ N := by exact_mod_cast hN
    linarith
  have hc2 : (N : ℝ) - 1 ≤ 4194304 := by
    have : (N : ℝ) ≤ 4194304 := by exact_mod_cast (show N ≤ 4194304 from hN'.trans (by norm_num))
    linarith
  have hcc : ((N : ℝ) - 1) ^ 2 ≤ 17592186044416 := by nlinarith
  have hcc0 : 0 < ((N : ℝ) - 1) ^ 2 := by positivity
  generalize Np.linspace (-1) 1 N q.2 ^ 2 + Np.linspace (-1) 1 N q.1 ^ 2 = R at *
  have e := abs_le.1 hs2
  norm_num at e
  refine ⟨fun hlt => ?_, fun hlt => ?_, fun hend => ?_⟩
  · rw [hmask, not_lt]
    have h1 : Spec.ringSq q + 1 ≤ ((N : ℤ) - 1) ^ 2 := hlt
    have h2 : (Spec.ringSq q : ℝ) + 1 ≤ ((N : ℝ) - 1) ^ 2 := by exact_mod_cast h1
    rw [← hring] at h2
    by_contra hc
    push Not at hc
    have h3 : (1 - R) * ((N : ℝ) - 1) ^ 2 < 1 := by
      have h4 : 1 - R < 1 / 17592186044416 := by
        norm_num
        linarith
      calc (1 - R) * ((N : ℝ) - 1) ^ 2 < 1 / 17592186044416 * ((N : ℝ) - 1) ^ 2 := mul_lt_mul_of_pos_right h4 hcc0
        _ ≤ 1 := by
          rw [div_mul_eq_mul_div, one_mul, div_le_one (by norm_num)]
          exact hcc
    linarith
  · rw [hmask]
    have h1 : ((N : ℤ) - 1) ^ 2 + 1 ≤ Spec.ringSq q := hlt
    have h2 : ((N : ℝ) - 1) ^ 2 + 1 ≤ (Spec.ringSq q : ℝ) := by exact_mod_cast h1
    rw [← hring] at h2
    by_contra hc
    push Not at hc
    have h3 : (R - 1) * ((N : ℝ) - 1) ^ 2 < 1 := by
      have h4 : R - 1 < 1 / 17592186044416 := by
        norm_num
        linarith
      calc (R - 1) * ((N : ℝ) - 1) ^ 2 < 1 / 17592186044416 * ((N : ℝ) - 1) ^ 2 := mul_lt_mul_of_pos_right h4 hcc0
        _ ≤ 1 := by
          rw [div_mul_eq_mul_div, one_mul, div_le_one (by norm_num)]
          exact hcc
    linarith
  · rw [hmask, not_lt]
    rcases hend with ⟨h1, h2⟩ | ⟨h1, h2⟩
    · obtain ⟨_, t, -, ht, -, ht1⟩ := ring_end h hN hN30 q.1 q.2 h1 h2
      rw [hs1] at ht
      cases ht
      exact ht1
    · obtain ⟨t, _, ht, -, ht1, -⟩ := ring_end h hN hN30 q.2 q.1 h1 h2
      rw [hs1] at ht
      cases ht
      exact ht1

/-- **C131.**  A map with an even number of pixels on a side has none on the circle. -/
theorem C131_even {N : ℕ} (he : Even N) (q : Fin N × Fin N) : Spec.ringSq q ≠ ((N : ℤ) - 1) ^ 2 := by
  obtain ⟨k, hk⟩ := he
  intro hc
  unfold Spec.ringSq at hc
  have e : (N : ℤ) = 2 * k := by omega
  rw [e] at hc
  generalize (((q.1 : ℕ) : ℤ)) = a at hc
  generalize (((q.2 : ℕ) : ℤ)) = b at hc
  have h1 : (2 : ℤ) * (2 * ((a - k) ^ 2 + (a - k) + (b - k) ^ 2 + (b - k)) - 2 * (k : ℤ) ^ 2 + 2 * k) + 1 = 0 := by nlinarith
  omega

/-- **C131.**  `rms` with `circ=True` in doubles.  It takes the entries of a set `S`, the ones that are left in the map
afterwards: every entry inside the circle that is not nan, none outside; of the pixels exactly on the circle at least
the ends of the axes; the rest of them are at the mercy of the rounding.  The result is the root of the mean of the
squares over `S` or, if `S` is empty, nan. -/
theorem C131_circle {rnd : ℝ → Fl} (h : Spec.Rounding rnd) (adds : ∀ k, Dbl.Adds k) (ha : ∀ k, Spec.Once (adds k))
    (N : ℕ) (hN : 2 ≤ N) (hN' : N ≤ 2 ^ 22) (f : Fin N × Fin N → Fl) (hf : ∀ q, Spec.Moderate (f q))
    (D : ℕ) (hd : ∀ k ≤ N * N, Spec.depth (adds k) ≤ D) (hD : D ≤ 2 ^ 40) :
    ∃ res g S, Dbl.rms rnd adds (.d2 N N f) true = (.ok res, .d2 N N g) ∧
      (∀ q, q ∉ S → g q = .nan) ∧ (∀ q ∈ S, g q = f q ∧ f q ≠ .nan) ∧
      (∀ q, f q ≠ .nan → Spec.ringSq q < ((N : ℤ) - 1) ^ 2 → q ∈ S) ∧
      (∀ q, ((N : ℤ) - 1) ^ 2 < Spec.ringSq q → q ∉ S) ∧
      (∀ q, f q ≠ .nan → (2 * (q.1 : ℕ) = N - 1 ∧ ((q.2 : ℕ) = 0 ∨ (q.2 : ℕ) = N - 1) ∨
        2 * (q.2 : ℕ) = N - 1 ∧ ((q.1 : ℕ) = 0 ∨ (q.1 : ℕ) = N - 1)) → q ∈ S) ∧
      (S = ∅ → res = .nan) ∧
      (S.Nonempty → ∃ z, res = .fin z ∧ Spec.IsDouble z ∧ 0 ≤ z ∧
        |z - Spec.rootMeanSq S f| ≤ (1.01 * D + 4) / 2 ^ 53 * Spec.rootMeanSq S f + 2 ^ (-500 : ℤ)) := by
  classical
  set g : Fin N × Fin N → Fl := fun q => if Dbl.circMask rnd N N q then .nan else f q with hg
  set l := (Dbl.rows g).filter Dbl.notNan with hl
  set S : Finset (Fin N × Fin N) := univ.filter fun q => Dbl.notNan (g q) = true with hS
  have hgm : ∀ q, Spec.Moderate (g q) := by
    intro q
    by_cases hq : Dbl.circMask rnd N N q
    · exact Or.inl (by simp only [hg, hq, if_true])
    · simp only [hg, hq, if_false]; exact hf q
  have hnn : ∀ x, Dbl.notNan x = true ↔ x ≠ .nan := by
    intro x
    cases x <;> simp [Dbl.notNan]
  have hlen : (l.length : ℝ) = S.card := by
    have := sum_filter_map (Dbl.rows g) Dbl.notNan fun _ => 1
    rw [rows_sum g fun x => if Dbl.notNan x then (1 : ℝ) else 0, Finset.sum_boole] at this
    rw [← this]
    simp [hl]
  have hlen' : l.length = S.card := by exact_mod_cast hlen
  have hcard : S.card ≤ N * N := by
    refine (Finset.card_le_univ _).trans ?_
    simp
  have hmemS : ∀ q, q ∈ S ↔ ¬ Dbl.circMask rnd N N q ∧ f q ≠ .nan := by
    intro q
    rw [hS, Finset.mem_filter, hnn]
    by_cases hq : Dbl.circMask rnd N N q
    · simp only [hg, hq, if_true]; simp
    · simp only [hg, hq, if_false]; simp
  have hgS : ∀ q ∈ S, g q = f q ∧ f q ≠ .nan := by
    intro q hq
    have := (hmemS q).1 hq
    exact ⟨by simp only [hg, this.1, if_false], this.2⟩
  have hsum : (l.map fun x => Spec.numberOf x ^ 2).sum = ∑ q ∈ S, Spec.numberOf (f q) ^ 2 := by
    rw [hl, sum_filter_map, rows_sum g fun x => if Dbl.notNan x then Spec.numberOf x ^ 2 else 0, ← Finset.sum_filter]
    exact Finset.sum_congr rfl fun q hq => by rw [(hgS q hq).1]
  have hNN : N * N ≤ 2 ^ 50 := by
    calc N * N ≤ 2 ^ 22 * 2 ^ 22 := Nat.mul_le_mul hN' hN'
      _ ≤ 2 ^ 50 := by norm_num
  refine ⟨Dbl.sqrtMean rnd (Dbl.nansumSq rnd adds l) l.length, g, S, ?_, ?_, hgS, ?_, ?_, ?_, ?_, ?_⟩
  · unfold Dbl.rms Dbl.maskNan
    simp only [dif_pos, Fin.cast_eq_self]
    rfl
  · intro q hq
    by_contra hc
    exact hq (Finset.mem_filter.2 ⟨mem_univ _, (hnn _).2 hc⟩)
  · intro q h1 h2
    exact (hmemS q).2 ⟨(mask_near h hN hN' q).1 h2, h1⟩
  · intro q h1 hq
    exact ((hmemS q).1 hq).1 ((mask_near h hN hN' q).2.1 h1)
  · intro q h1 h2
    exact (hmemS q).2 ⟨(mask_near h hN hN' q).2.2 h2, h1⟩
  · intro h0
    have hl0 : l = [] := by
      rw [← List.length_eq_zero_iff, hlen', h0, Finset.card_empty]
    rw [hl0]
    obtain ⟨c, hc1, -, hc2, hc3⟩ := eval_near h (k := 0) (s := fun _ => 0) (fun i => i.elim0) (fun i => i.elim0) (adds 0)
      ((hd 0 (Nat.zero_le _)).trans hD) (by simp)
    have hc0 : c = 0 := by
      simp at hc2 hc3
      linarith
    have hz : Dbl.ofInt rnd ((0 : ℕ) : ℤ) = .fin 0 := by
      unfold Dbl.ofInt
      simpa using rnd_zero h
    have hns : Dbl.nansumSq rnd adds [] = .fin 0 := by
      rw [← hc0, ← hc1]
      unfold Dbl.nansumSq
      congr 1
      funext i
      exact i.elim0
    rw [hns]
    unfold Dbl.sqrtMean
    rw [List.length_nil, hz]
    simp [Dbl.div, Fl.div, Fl.infSign, Dbl.rop, Dbl.sqrt, Fl.sqrt]
  · intro hne
    have h1 : 1 ≤ l.length := by rw [hlen']; exact hne.card_pos
    obtain ⟨z, hz1, hz2, hz3, hz4⟩ := listRms_near h adds ha l
      (fun x hx => by obtain ⟨q, rfl⟩ := rows_mem (List.mem_of_mem_filter hx); exact hgm q)
      (hd l.length (by rw [hlen']; exact hcard)) hD h1 (by rw [hlen']; exact hcard.trans hNN) hsum
    rw [hlen] at hz4
    exact ⟨z, hz1, hz2, hz3, hz4⟩

end Verif.Props
